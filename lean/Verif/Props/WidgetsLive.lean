import Verif.Props.Widgets
import Verif.Props.BrowserErrors

set_option autoImplicit false
set_option linter.unusedSectionVars false

/-!
# C79: a live-reload client whose scripts fill opaque elements stays up to date
-/

namespace Hotmeal

variable {H : Type} [DecidableEq H] {hashNode : HKind → Option Str → List H → H}
  {old new : Document} {ob nb : Nat} {N : QualName → Prop}

/-! ### Reports at the end of a patch list -/

theorem WebDom.applyKeep_reports (dom : WebDom) (root : Nat) : ∀ (rs : List Patch) (A : Arena NodeData) (s : Slots),
    (∀ P ∈ rs, P.isReport = true) → (dom.applyKeep root A s rs).1 = A := by
  intro rs
  induction rs with
  | nil => intro A s _; rfl
  | cons P rs ih =>
    intro A s h
    have hP := h P (by simp)
    cases P with
    | opaqueChanged q c =>
      simp only [WebDom.applyKeep]
      cases e : dom.applyPatch root A s (.opaqueChanged q c) with
      | error x => rfl
      | ok r =>
        simp only [WebDom.applyPatch] at e
        obtain ⟨n, h1, e⟩ := res_bind e
        obtain ⟨_, h2, e⟩ := res_bind e
        cases e
        exact ih A s fun P hP => h P (by simp [hP])
    | _ => cases hP

/-- The page after a patch list is the page before the reports at its end, even if these fail. -/
theorem WebDom.applyPatchesKeep_reports (dom : WebDom) {root : Nat} {ps rs : List Patch} {A A' : Arena NodeData}
    (e : dom.applyPatches root A ps = .ok A') (h : ∀ P ∈ rs, P.isReport = true) :
    (dom.applyPatchesKeep root A (ps ++ rs)).1 = A' := by
  unfold WebDom.applyPatches at e
  unfold WebDom.applyPatchesKeep
  obtain ⟨⟨A1, s1⟩, h1, e⟩ := res_bind e
  cases e
  have key : ∀ (ps : List Patch) (A : Arena NodeData) (s : Slots), dom.applyLoop root A s ps = .ok (A', s1) →
      dom.applyKeep root A s (ps ++ rs) = dom.applyKeep root A' s1 rs := by
    intro ps
    induction ps with
    | nil => intro A s h; cases h; rfl
    | cons P ps ih =>
      intro A s h
      simp only [WebDom.applyLoop] at h
      obtain ⟨⟨A2, s2⟩, h2, h⟩ := res_bind h
      simp only [List.cons_append, WebDom.applyKeep, h2]
      exact ih A2 s2 h
  rw [key ps A _ h1]
  exact dom.applyKeep_reports root rs A' s1 h

/-! ### What scripts do -/

/-- Scripts turn the page `E` into `E'` by working inside the opaque elements of `D`: they put nodes there, take
nodes away and change their data. The texts that they make have no children, and the attributes have names in
`N`. -/
structure Scripted (N : QualName → Prop) (D : Document) (b : Nat) (E E' : Arena NodeData) (eb : Nat) : Prop where
  wf : E'.WF
  lt : eb < E'.next
  lower : E'.Lower
  data : ∀ n, E.Anc eb n → ¬ InWidget D.arena E b eb n → E'.data n = E.data n
  kids : ∀ n, E.Anc eb n → ¬ InWidget D.arena E b eb n →
    (∀ x, Spot D.arena E b eb x n → (D.arena.data x).isOpaque = false) → E'.children n = E.children n
  leaf : ∀ n s, E'.Anc eb n → (E'.data n).kind = .text s → E'.children n = []
  names : ∀ n tag attrs, InWidget D.arena E' b eb n → (E'.data n).kind = .element tag attrs → attrs.Written N

theorem Staged.child_outside {D : Document} {b : Nat} {E : Arena NodeData} {eb : Nat} (h : Staged N D b E eb)
    {a e j : Nat} (hs : Spot D.arena E b eb a e) (ho : (D.arena.data a).isOpaque = false)
    (hj : j ∈ E.children e) : E.Anc eb j ∧ ¬ InWidget D.arena E b eb j := by
  have hp := (h.wf.mem_iff _ _).1 hj
  refine ⟨.step hp (hs.ancE h.wf), ?_⟩
  rintro ⟨x, u, h1, h2, h3, h4⟩
  rcases h3.cases' with rfl | ⟨q, hq, h3⟩
  · exact h4 rfl
  rw [hp] at hq
  cases hq
  by_cases he : e = u
  · subst he
    rw [h1.inj h.wf a hs, ho] at h2
    cases h2
  · exact h.not_spot ⟨x, u, h1, h2, h3, he⟩ ⟨a, hs⟩

theorem Scripted.spot_kids {D : Document} {b : Nat} {E E' : Arena NodeData} {eb : Nat}
    (hc : Scripted N D b E E' eb) (h : Staged N D b E eb) {a e : Nat} (hs : Spot D.arena E b eb a e)
    (ho : (D.arena.data a).isOpaque = false) : E'.children e = E.children e :=
  hc.kids e (hs.ancE h.wf) (fun hw => h.not_spot hw ⟨a, hs⟩) fun x hx => by rw [hx.inj h.wf a hs]; exact ho

/-- Scripts leave the nodes outside opaque elements where they are. -/
theorem Scripted.spot {D : Document} {b : Nat} {E E' : Arena NodeData} {eb : Nat} (hc : Scripted N D b E E' eb)
    (h : Staged N D b E eb) {a e : Nat} (hs : Spot D.arena E b eb a e) : Spot D.arena E' b eb a e := by
  induction hs with
  | root => exact .root
  | child hs ho ha hb ih => exact .child ih ho ha (by rw [hc.spot_kids h hs ho]; exact hb)

/-- A page that shows a document does so after scripts have worked inside the opaque elements. -/
theorem Staged.scripted {D : Document} {b : Nat} {E E' : Arena NodeData} {eb : Nat} (h : Staged N D b E eb)
    (hb : (D.arena.data b).isOpaque = false) (hc : Scripted N D b E E' eb) : Staged N D b E' eb := by
  have hdata : ∀ {a e}, Spot D.arena E b eb a e → E'.data e = E.data e := fun hs =>
    hc.data _ (hs.ancE h.wf) fun hw => h.not_spot hw ⟨_, hs⟩
  have hrest : ∀ {a e} (k : Nat), Spot D.arena E b eb a e → (D.arena.data a).isOpaque = false →
      (∀ j ∈ (E.children e).drop k, (E.data j).kind = .text []) →
      ∀ j ∈ (E'.children e).drop k, (E'.data j).kind = .text [] := by
    intro a e k hs ho hr j hj
    rw [hc.spot_kids h hs ho] at hj
    obtain ⟨h1, h2⟩ := h.child_outside hs ho (List.mem_of_mem_drop hj)
    rw [hc.data j h1 h2]
    exact hr j hj
  have hshow : ∀ {a e}, Shows D.arena E a e → Spot D.arena E b eb a e → Shows D.arena E' a e := by
    intro a e hsh
    induction hsh with
    | @node a e data len rest kids ih =>
      intro hs
      refine .node (by rw [hdata hs]; exact data) (fun ho => ?_) (fun ho => hrest _ hs ho (rest ho))
        (fun ho i c d hcc hd => ?_)
      · rw [hc.spot_kids h hs ho]; exact len ho
      · rw [hc.spot_kids h hs ho] at hd
        exact ih ho i c d hcc hd (.child hs ho hcc hd)
  refine ⟨hc.wf, hc.lt, hc.leaf, ?_, ?_, ?_, hrest _ .root hb h.rest, ?_⟩
  · rw [hdata .root]; exact h.elem
  · intro n tag attrs hn hk
    rcases hn with rfl | hn
    · rw [hdata .root] at hk
      exact h.names n tag attrs (.inl rfl) hk
    · exact hc.names n tag attrs hn hk
  · rw [hc.spot_kids h .root hb]; exact h.len
  · intro i c d hcc hd
    rw [hc.spot_kids h .root hb] at hd
    exact hshow (h.kids i c d hcc hd) (.child .root hb hcc hd)

/-- A freshly loaded page shows its document. -/
theorem Page.Loads.staged {p : Page} {D : Document} {b : Nat} (h : p.Loads D b) (hD : D.Plain b)
    (hn : D.NamesIn N b) (hc : D.ClearBody b) : Staged N D b p.arena p.body := by
  obtain ⟨k0, A, db, body, m, ψ, L, hm, hcon, he, _, hA⟩ := h.mirrors hD hn id
  exact hm.staged hA hcon.none hD.sound.arena.wf (fun n => Comparable.not_document D hD) hc he

/-! ### One event -/

/-- What is assumed of two HTML texts that follow each other on a route. -/
structure Served (dom : WebDom) (hashNode : HKind → Option Str → List H → H) (N : QualName → Prop)
    (old new : Document) (ob nb : Nat) : Prop where
  comparable : Comparable old new ob nb
  noCollision : NoCollision hashNode (buildTree old ob) (diffable new) nb
  apart : Apart old new ob nb
  clearOld : old.ClearBody ob
  clearNew : new.ClearBody nb
  moves : NoMoveBelowSelf hashNode old new ob nb ∨ NoInversion hashNode old new ob nb
  namesOld : old.NamesIn N ob
  namesNew : new.NamesIn N nb
  kept : new.AllIn dom.KeepsTag dom.KeepsName nb

theorem Patch.wire_report {rs : List Patch} (h : ∀ P ∈ rs, P.isReport = true) : rs.map Patch.wire = rs := by
  conv => rhs; rw [← List.map_id rs]
  apply List.map_congr_left
  intro P hP
  have := h P hP
  cases P with
  | opaqueChanged q c => rfl
  | _ => cases this

/-- **C79**, partial, for one event: the client shows the old document, and its scripts have filled the opaque
elements. When it has handled the event with the patches to the new document, it shows the new document, whether or
not an error was logged. The content of the opaque elements that were on the page is as the scripts left it, and a
widget that is the only one of its name is the same DOM node, at its place in the new document.

Missing from the full statement: as for `C78_widgets_survive_partial`, except that the reports are covered. -/
theorem C79_event_partial (dom : WebDom) (hv : Served dom hashNode N old new ob nb) (hN : PlainNames N)
    (route : Str) (fresh p : Page) (hlow : p.arena.Lower) (hs : Staged N old ob p.arena p.body) :
    ∃ ps, diff hashNode old new = .ok ps ∧
      ((Page.handleKeep dom fresh p (.patches route ps)).body = p.body ∧
      Staged N new nb (Page.handleKeep dom fresh p (.patches route ps)).arena p.body ∧
      (Page.handleKeep dom fresh p (.patches route ps)).arena.Lower ∧
      (∀ x u, Spot old.arena p.arena ob p.body x u → (old.arena.data x).isOpaque = true →
        SameInside p.arena (Page.handleKeep dom fresh p (.patches route ps)).arena u) ∧
      ∀ x y u, OnlyWidget old new ob nb x y → Spot old.arena p.arena ob p.body x u →
        Spot new.arena (Page.handleKeep dom fresh p (.patches route ps)).arena nb p.body y u) := by
  obtain ⟨g, hb⟩ := buildTree_spec old hv.comparable.old.sound.arena.leafy ob
  obtain ⟨ps, rs, E', h1, h2, hw, h3, h4, h5, h6, h7⟩ := hs.update dom hv.comparable hv.noCollision
    (hv.apart.agree hv.comparable hv.clearOld hv.noCollision) hv.clearOld hv.clearNew hv.moves hN hv.namesOld
    hv.namesNew hv.kept hlow hb
  have e : Page.handleKeep dom fresh p (.patches route (ps ++ rs)) = { p with arena := E' } := by
    simp only [Page.handleKeep, List.map_append, hw, Patch.wire_report h2, dom.applyPatchesKeep_reports h4 h2]
  refine ⟨ps ++ rs, h1, ?_⟩
  rw [e]
  refine ⟨rfl, h5, h6, ?_, ?_⟩
  · intro x u hx ho
    obtain ⟨Ei, k1, k2⟩ := h3 ps.length
    rw [List.take_length, h4] at k1
    cases k1
    exact k2 x u hx ho
  · intro x y u ho hu
    obtain ⟨a, _, rfl, hm⟩ := ho.matched hv.comparable hv.noCollision hv.clearOld hv.apart hb
    exact h7 a y u hm hu

/-! ### A session -/

open Server

/-- The event of the call `c`, if it is about the route, has patches and does not reload the page. -/
def Server.NoReload {E : Type} (diffHtml : Str → Str → Except E (List Patch)) (route : Str) (S : Server)
    (c : Call) : Prop :=
  c.route = some route → ∀ ev, (S.run diffHtml c).2 = some ev → ∃ r ps, ev = .patches r ps

/-- A relation between the page and the cached HTML that loading establishes and patches keep is kept by calls. -/
theorem Server.keep_inv {E : Type} (dom : WebDom) (diffHtml : Str → Str → Except E (List Patch)) (load : Str → Page)
    (route : Str) (ok : Str → Prop) (reloads : Prop) (R : Page → Str → Prop)
    (hload : reloads → ∀ h, ok h → R (load h) h)
    (hupd : ∀ a b p, ok a → ok b → R p a → ∃ ps, diffHtml a b = .ok ps ∧
      ∀ fresh r, R (Page.handleKeep dom fresh p (.patches r ps)) b)
    (S : Server) (p : Page) (c : Call) (hc : c.Follows ok route) (hr : reloads ∨ S.NoReload diffHtml route c)
    (hinv : ∀ h, S.html route = some h → ok h ∧ R p h) :
    ∀ h, (S.keepStep dom diffHtml load route p c).1.html route = some h →
      ok h ∧ R (S.keepStep dom diffHtml load route p c).2 h := by
  -- the call is about another route, or there is no event
  have hquiet : (S.run diffHtml c).1.html route = S.html route ∨ (S.run diffHtml c).1.html route = none →
      (c.route = some route → (S.run diffHtml c).2 = none) →
      ∀ h, (S.keepStep dom diffHtml load route p c).1.html route = some h →
        ok h ∧ R (S.keepStep dom diffHtml load route p c).2 h := by
    intro h1 h2 h hh
    unfold Server.keepStep at hh ⊢
    generalize S.run diffHtml c = x at h1 h2 hh ⊢
    obtain ⟨S1, ev⟩ := x
    simp only at h1 h2 hh ⊢
    by_cases e : c.route = some route
    · rw [if_pos e, h2 e] at hh ⊢
      rcases h1 with h1 | h1
      · exact hinv h (by rw [← h1]; exact hh)
      · rw [h1] at hh; cases hh
    · rw [if_neg e] at hh ⊢
      rcases h1 with h1 | h1
      · exact hinv h (by rw [← h1]; exact hh)
      · rw [h1] at hh; cases hh
  have hother : ∀ (S : Server) r h', r ≠ route → (S.diffRoute diffHtml r h').1.html route = S.html route := by
    intro S r h' hr
    unfold Server.diffRoute
    have : ∀ v, Server.put S.html r v route = S.html route := by
      intro v; unfold Server.put; rw [if_neg (fun e => hr e.symm)]
    cases S.html r with
    | none => exact this _
    | some old =>
      simp only
      split
      · rfl
      · split
        · split
          · exact this _
          · exact this _
        · exact this _
  have hown : ∀ (S : Server) h', ok h' → (∀ h, S.html route = some h → ok h ∧ R p h) →
      (reloads ∨ ∀ ev, (S.diffRoute diffHtml route h').2 = some ev → ∃ r ps, ev = .patches r ps) →
      (S.diffRoute diffHtml route h').1.html route = some h' ∧
      R (match (S.diffRoute diffHtml route h').2 with
        | none => p
        | some e => Page.handleKeep dom
          ((((S.diffRoute diffHtml route h').1.html route).map load).getD p) p e) h' := by
    intro S h' hh' hinv hr
    unfold Server.diffRoute at hr ⊢
    cases e : S.html route with
    | none =>
      refine ⟨by simp [Server.put], ?_⟩
      simp only [e] at hr
      rcases hr with hr | hr
      · simpa [Page.handleKeep, Server.put] using hload hr h' hh'
      · obtain ⟨_, _, h⟩ := hr _ rfl
        cases h
    | some h =>
      obtain ⟨hh, hm⟩ := hinv h e
      simp only
      by_cases eh : h = h'
      · subst eh
        rw [if_pos rfl]
        exact ⟨e, hm⟩
      · rw [if_neg eh]
        obtain ⟨ps, e1, e2⟩ := hupd h h' p hh hh' hm
        simp only [e1]
        cases ps with
        | nil =>
          refine ⟨by simp [Server.put], ?_⟩
          have := e2 p []
          simpa [Page.handleKeep, WebDom.applyPatchesKeep, WebDom.applyKeep] using this
        | cons P ps =>
          exact ⟨by simp [Server.put], e2 _ _⟩
  cases c with
  | cacheHtml r h =>
    refine hquiet (.inl ?_) fun _ => rfl
    simp only [Server.run, Server.cacheHtml, Server.put]
    rw [if_neg (fun e => hc e.symm)]
  | cacheHead r i => exact hquiet (.inl rfl) fun _ => rfl
  | removeRoute r =>
    refine hquiet ?_ fun _ => rfl
    simp only [Server.run, Server.removeRoute, Server.put]
    split
    · exact .inr rfl
    · exact .inl rfl
  | clear => exact hquiet (.inr rfl) fun _ => rfl
  | diffRoute r h' =>
    by_cases er : r = route
    · subst er
      obtain ⟨e1, e2⟩ := hown S h' (hc rfl) hinv (hr.imp_right fun h => h rfl)
      intro h hh
      simp only [Server.keepStep, Server.run, Call.route, if_true] at hh ⊢
      rw [e1] at hh
      cases hh
      exact ⟨hc rfl, e2⟩
    · refine hquiet (.inl (hother S r h' er)) fun e => absurd (Option.some.inj e) er
  | diffRouteWithHead r h' i =>
    by_cases er : r = route
    · subst er
      intro h hh
      have hr' := hr.imp_right fun h => h rfl
      simp only [Server.keepStep, Server.run, Server.diffRouteWithHead, Call.route, if_true] at hh hr' ⊢
      by_cases hch : (S.cacheHead r i).2 = true
      · simp only [hch, if_true] at hh hr' ⊢
        rcases hr' with hr' | hr'
        · simp only [Server.put, if_true, Option.some.injEq] at hh
          subst hh
          exact ⟨hc rfl, by simpa [Page.handleKeep, Server.put] using hload hr' h' (hc rfl)⟩
        · obtain ⟨_, _, h⟩ := hr' _ rfl
          cases h
      · simp only [hch, Bool.false_eq_true, if_false] at hh hr' ⊢
        obtain ⟨e1, e2⟩ := hown (S.cacheHead r i).1 h' (hc rfl) hinv hr'
        rw [e1] at hh
        cases hh
        exact ⟨hc rfl, e2⟩
    · refine hquiet (.inl ?_) fun e => absurd (Option.some.inj e) er
      simp only [Server.run, Server.diffRouteWithHead]
      split
      · simp only [Server.put]
        rw [if_neg (fun e => er e.symm)]
        rfl
      · exact hother _ r h' er

/-- A session of a client: calls to the server, with the events about the route handled by the client and errors
logged, and scripts working inside the opaque elements of the HTML cached for the route. `reloads` tells whether
the page may be reloaded. -/
inductive Session {E : Type} (dom : WebDom) (diffHtml : Str → Str → Except E (List Patch)) (parse : Str → Document)
    (body : Str → Nat) (load : Str → Page) (N : QualName → Prop) (route : Str) (ok : Str → Prop) (reloads : Prop) :
    Server → Page → Server → Page → Prop
  | nil (S : Server) (p : Page) : Session dom diffHtml parse body load N route ok reloads S p S p
  | call {S S' : Server} {p p' : Page} (c : Call) (follows : c.Follows ok route)
      (quiet : reloads ∨ S.NoReload diffHtml route c)
      (rest : Session dom diffHtml parse body load N route ok reloads (S.keepStep dom diffHtml load route p c).1
        (S.keepStep dom diffHtml load route p c).2 S' p') :
      Session dom diffHtml parse body load N route ok reloads S p S' p'
  | script {S S' : Server} {p p' : Page} (A : Arena NodeData)
      (inside : ∀ h, S.html route = some h → Scripted N (parse h) (body h) p.arena A p.body)
      (rest : Session dom diffHtml parse body load N route ok reloads S { p with arena := A } S' p') :
      Session dom diffHtml parse body load N route ok reloads S p S' p'

/-- **C79**, partial: take a client that loaded the HTML cached for its route. Whatever is called on the server and
whatever scripts do inside opaque elements, the client shows the HTML that is cached for the route at the end, apart
from the content of opaque elements. This is so even if errors were logged in between.

Missing from the full statement: as for `C79_event_partial`. -/
theorem C79_session_partial (dom : WebDom) (parse : Str → Document) (body : Str → Nat) (load : Str → Page)
    (route : Str) (ok : Str → Prop) (hN : PlainNames N) (hload : ∀ h, ok h → (load h).Loads (parse h) (body h))
    (hpair : ∀ a b, ok a → ok b → Served dom hashNode N (parse a) (parse b) (body a) (body b))
    (S S' : Server) (h0 : Str) (hS : S.html route = some h0) (hok : ok h0) (p' : Page)
    (hrun : Session dom (fun a b => diff hashNode (parse a) (parse b)) parse body load N route ok True
      S (load h0) S' p') :
    ∀ h, S'.html route = some h → ok h ∧ Staged N (parse h) (body h) p'.arena p'.body := by
  have hfresh : ∀ h, ok h → (load h).arena.Lower ∧ Staged N (parse h) (body h) (load h).arena (load h).body :=
    fun h hh => ⟨(hload h hh).lower, (hload h hh).staged (hpair h h hh hh).comparable.old (hpair h h hh hh).namesOld
      (hpair h h hh hh).clearOld⟩
  suffices key : ∀ S p, Session dom (fun a b => diff hashNode (parse a) (parse b)) parse body load N route ok True
      S p S' p' → (∀ h, S.html route = some h →
        ok h ∧ p.arena.Lower ∧ Staged N (parse h) (body h) p.arena p.body) →
      ∀ h, S'.html route = some h → ok h ∧ p'.arena.Lower ∧ Staged N (parse h) (body h) p'.arena p'.body by
    intro h hh
    obtain ⟨h1, _, h2⟩ := key S (load h0) hrun (fun h e => by rw [hS] at e; cases e; exact ⟨hok, hfresh _ hok⟩) h hh
    exact ⟨h1, h2⟩
  intro S p hrun
  induction hrun with
  | nil => exact id
  | @call S S' p p' c hc hr rest ih =>
    intro hinv
    refine ih hrun (Server.keep_inv dom _ load route ok True
      (fun p h => p.arena.Lower ∧ Staged N (parse h) (body h) p.arena p.body) (fun _ => hfresh) ?_ S p c hc hr hinv)
    intro a b p ha hb hp
    obtain ⟨ps, h1, h2⟩ := C79_event_partial dom (hpair a b ha hb) hN [] p p hp.1 hp.2
    exact ⟨ps, h1, fun fresh r => ⟨h2.2.2.1, h2.2.1⟩⟩
  | @script S S' p p' A hsc rest ih =>
    intro hinv
    refine ih hrun fun h hh => ?_
    obtain ⟨h1, _, h3⟩ := hinv h hh
    have hcl : ((parse h).arena.data (body h)).isOpaque = false := by
      rw [← diffable_isOpaque]; exact (hpair h h h1 h1).clearOld
    exact ⟨h1, (hsc h hh).lower, h3.scripted hcl (hsc h hh)⟩

/-- **C79**, partial, for a widget: in a session without a reload, a widget that is the only one of its name in every
HTML of the route is the same DOM node at the end, at its place in the HTML that is then cached. Missing from the full
statement: as above. -/
theorem C79_widget_stays_partial (dom : WebDom) (parse : Str → Document) (body widget : Str → Nat) (load : Str → Page)
    (route : Str) (ok : Str → Prop) (hN : PlainNames N)
    (hpair : ∀ a b, ok a → ok b → Served dom hashNode N (parse a) (parse b) (body a) (body b))
    (hw : ∀ a b, ok a → ok b → OnlyWidget (parse a) (parse b) (body a) (body b) (widget a) (widget b))
    (S S' : Server) (h0 : Str) (hS : S.html route = some h0) (hok : ok h0) (p p' : Page) (u : Nat)
    (hlow : p.arena.Lower) (hs : Staged N (parse h0) (body h0) p.arena p.body)
    (hu : Spot (parse h0).arena p.arena (body h0) p.body (widget h0) u)
    (hrun : Session dom (fun a b => diff hashNode (parse a) (parse b)) parse body load N route ok False S p S' p') :
    ∀ h, S'.html route = some h → ok h ∧ Staged N (parse h) (body h) p'.arena p'.body ∧
      Spot (parse h).arena p'.arena (body h) p'.body (widget h) u := by
  suffices key : ∀ S p, Session dom (fun a b => diff hashNode (parse a) (parse b)) parse body load N route ok False
      S p S' p' → (∀ h, S.html route = some h → ok h ∧ p.arena.Lower ∧ Staged N (parse h) (body h) p.arena p.body ∧
        Spot (parse h).arena p.arena (body h) p.body (widget h) u) →
      ∀ h, S'.html route = some h → ok h ∧ p'.arena.Lower ∧ Staged N (parse h) (body h) p'.arena p'.body ∧
        Spot (parse h).arena p'.arena (body h) p'.body (widget h) u by
    intro h hh
    obtain ⟨h1, _, h2⟩ := key S p hrun (fun h e => by rw [hS] at e; cases e; exact ⟨hok, hlow, hs, hu⟩) h hh
    exact ⟨h1, h2⟩
  clear hrun hlow hs hu hS hok
  intro S p hrun
  induction hrun with
  | nil => exact id
  | @call S S' p p' c hc hr rest ih =>
    intro hinv
    refine ih (Server.keep_inv dom _ load route ok False
      (fun p h => p.arena.Lower ∧ Staged N (parse h) (body h) p.arena p.body ∧
        Spot (parse h).arena p.arena (body h) p.body (widget h) u) (fun h => h.elim) ?_ S p c hc hr hinv)
    intro a b p ha hb hp
    obtain ⟨ps, h1, _, h2, h3, _, h4⟩ := C79_event_partial dom (hpair a b ha hb) hN [] p p hp.1 hp.2.1
    exact ⟨ps, h1, fun fresh r => ⟨h3, h2, h4 _ _ u (hw a b ha hb) hp.2.2⟩⟩
  | @script S S' p p' A hsc rest ih =>
    intro hinv
    refine ih fun h hh => ?_
    obtain ⟨h1, _, h3, h4⟩ := hinv h hh
    have hcl : ((parse h).arena.data (body h)).isOpaque = false := by
      rw [← diffable_isOpaque]; exact (hpair h h h1 h1).clearOld
    exact ⟨h1, (hsc h hh).lower, h3.scripted hcl (hsc h hh), (hsc h hh).spot h3 h4⟩

/-! ### A concrete session -/

/-- The page of `shop1` when the script has drawn the map. -/
def shopDrawn : List Html :=
  [ex "h1" [] [.text "Shop".toList], ex "p" [] [.text "Open".toList],
    ex "my-map" [("data-hotmeal-opaque", "map")] [ex "canvas" [("width", "9")] [], .text "N".toList]]

/-- The toy route goes back and forth between `shop1` and `shop2`. -/
theorem shop_served (a b : Str) : Served WebDom.lenient Shape.node bareName (toyParse shop1 shop2 a)
      (toyParse shop1 shop2 b) 2 2 ∧
    OnlyWidget (toyParse shop1 shop2 a) (toyParse shop1 shop2 b) 2 2 (if a = ['a'] then 7 else 3)
      (if b = ['a'] then 7 else 3) := by
  have h1 := ofForest_valid shop1 (by decide +kernel)
  have h2 := ofForest_valid shop2 (by decide +kernel)
  have t1 : Html.tidyL true shop1 = true := by decide +kernel
  have t2 : Html.tidyL true shop2 = true := by decide +kernel
  have n1 := namesIn_of_bareB (D := .ofForest shop1) (b := 2) h1.wf (by decide +kernel) (by decide +kernel)
  have n2 := namesIn_of_bareB (D := .ofForest shop2) (b := 2) h2.wf (by decide +kernel) (by decide +kernel)
  have k1 : (Document.ofForest shop1).AllIn WebDom.lenient.KeepsTag WebDom.lenient.KeepsName 2 :=
    allIn_of_keptB h1.wf (by decide +kernel) (by decide +kernel)
  have k2 : (Document.ofForest shop2).AllIn WebDom.lenient.KeepsTag WebDom.lenient.KeepsName 2 :=
    allIn_of_keptB h2.wf (by decide +kernel) (by decide +kernel)
  unfold toyParse
  by_cases ea : a = ['a'] <;> by_cases eb : b = ['a'] <;> simp only [ea, eb, if_true, if_false]
  · exact ⟨⟨comparable_ofForest_tidy t1 t1, noCollision_shape _ _ _, apart_of h1.wf h1.wf (by decide +kernel),
      by decide +kernel, by decide +kernel, .inl (noMoveBelowSelf_of_movesSafe (by decide +kernel)), n1, n1, k1⟩,
      only_of h1.wf h1.wf (by decide +kernel) (.child .root (by decide +kernel) (by decide +kernel)
        (sameTypeB_spec _ _ (by decide +kernel)))⟩
  · exact ⟨⟨comparable_ofForest_tidy t1 t2, noCollision_shape _ _ _, apart_of h1.wf h2.wf (by decide +kernel),
      by decide +kernel, by decide +kernel, .inl (noMoveBelowSelf_of_movesSafe (by decide +kernel)), n1, n2, k2⟩,
      only_of h1.wf h2.wf (by decide +kernel) (.child .root (by decide +kernel) (by decide +kernel)
        (sameTypeB_spec _ _ (by decide +kernel)))⟩
  · exact ⟨⟨comparable_ofForest_tidy t2 t1, noCollision_shape _ _ _, apart_of h2.wf h1.wf (by decide +kernel),
      by decide +kernel, by decide +kernel, .inl (noMoveBelowSelf_of_movesSafe (by decide +kernel)), n2, n1, k1⟩,
      only_of h2.wf h1.wf (by decide +kernel) (.child .root (by decide +kernel) (by decide +kernel)
        (sameTypeB_spec _ _ (by decide +kernel)))⟩
  · exact ⟨⟨comparable_ofForest_tidy t2 t2, noCollision_shape _ _ _, apart_of h2.wf h2.wf (by decide +kernel),
      by decide +kernel, by decide +kernel, .inl (noMoveBelowSelf_of_movesSafe (by decide +kernel)), n2, n2, k2⟩,
      only_of h2.wf h2.wf (by decide +kernel) (.child .root (by decide +kernel) (by decide +kernel)
        (sameTypeB_spec _ _ (by decide +kernel)))⟩

theorem shop_loads (h : Str) : (toyLoad shop1 shop2 h).Loads (toyParse shop1 shop2 h) 2 := by
  have hc := (shop_served h h).1.comparable
  have hwf := hc.old.sound.arena.wf
  obtain ⟨hbm, _⟩ := Document.body_spec hc.old.body
  refine ⟨hwf, (hwf.lt_of_parent _ _ ((hwf.mem_iff _ _).1 hbm)).1, hc.old.elemBelow, rfl, ?_⟩
  unfold toyLoad toyParse
  split <;> exact lower_ofForest (by decide +kernel)

/-- The script draws the map. -/
theorem shop_scripted : Scripted bareName (.ofForest shop1) 2 (Document.ofForest shop1).arena
    (Document.ofForest shopDrawn).arena 2 := by
  have h1 := ofForest_valid shop1 (by decide +kernel)
  have h2 := ofForest_valid shopDrawn (by decide +kernel)
  have hp := comparable_ofForest_tidy (o := true) (cs := shopDrawn) (ds := shopDrawn) (by decide +kernel)
    (by decide +kernel)
  have hn := namesIn_of_bareB (D := .ofForest shopDrawn) (b := 2) h2.wf (by decide +kernel) (by decide +kernel)
  have hlt : ∀ n, (Document.ofForest shop1).arena.Anc 2 n → n < 8 := by
    intro n hn
    have := (h1.wf.mem_descendants _ _).2 hn
    have hall : ((Document.ofForest shop1).arena.descendants 2).all (fun n => decide (n < 8)) = true := by
      decide +kernel
    simpa using List.all_eq_true.1 hall n this
  have hd : ∀ n, n < 8 → (Document.ofForest shopDrawn).arena.data n = (Document.ofForest shop1).arena.data n := by
    decide +kernel
  have hk : ∀ n, n < 7 → (Document.ofForest shopDrawn).arena.children n =
      (Document.ofForest shop1).arena.children n := by
    decide +kernel
  refine ⟨h2.wf, by decide +kernel, lower_ofForest (by decide +kernel), fun n ha _ => hd n (hlt n ha),
    fun n ha _ ho => ?_, fun n s _ e => hp.old.sound.arena.leaf n (.inl ⟨s, e⟩), ?_⟩
  · by_cases e : n = 7
    · subst e
      have hs : Spot (Document.ofForest shop1).arena (Document.ofForest shop1).arena 2 2 7 7 :=
        .child (i := 2) .root (by decide +kernel) (by decide +kernel) (by decide +kernel)
      have h := ho 7 hs
      have h' : ((Document.ofForest shop1).arena.data 7).isOpaque = true := by decide +kernel
      rw [h] at h'
      cases h'
    · have := hlt n ha
      exact hk n (by omega)
  · intro n tag attrs hw e
    obtain ⟨x, u, k1, _, k3, _⟩ := hw
    exact ⟨attrs, rfl, hn n tag attrs ((k1.ancE h2.wf).trans k3) e, hp.old.sound.arena.uniq n tag attrs e⟩

/-- The hypotheses of the C79 theorems hold for a session in which the script draws the map of `shop1` and then the
route gets `shop2`. -/
example : PlainNames bareName ∧ (∀ h, (toyLoad shop1 shop2 h).Loads (toyParse shop1 shop2 h) 2) ∧
    (∀ a b, Served WebDom.lenient Shape.node bareName (toyParse shop1 shop2 a) (toyParse shop1 shop2 b) 2 2 ∧
      OnlyWidget (toyParse shop1 shop2 a) (toyParse shop1 shop2 b) 2 2 (if a = ['a'] then 7 else 3)
        (if b = ['a'] then 7 else 3)) ∧
    (Server.new.cacheHtml ['r'] ['a']).1.html ['r'] = some ['a'] ∧
    Spot (toyParse shop1 shop2 ['a']).arena (toyLoad shop1 shop2 ['a']).arena 2 (toyLoad shop1 shop2 ['a']).body 7 7 ∧
    ∃ S' p', S'.html ['r'] = some ['b'] ∧
      Session WebDom.lenient (fun a b => diff Shape.node (toyParse shop1 shop2 a) (toyParse shop1 shop2 b))
        (toyParse shop1 shop2) (fun _ => 2) (toyLoad shop1 shop2) bareName ['r'] (fun _ => True) False
        (Server.new.cacheHtml ['r'] ['a']).1 (toyLoad shop1 shop2 ['a']) S' p' := by
  refine ⟨plainNames_bare, shop_loads, shop_served, by decide, ?_, _, _, ?_, .script
    (Document.ofForest shopDrawn).arena ?_ (.call (.diffRoute ['r'] ['b']) (fun _ => trivial) ?_ (.nil _ _))⟩
  · exact .child (i := 2) .root (by decide +kernel) (by decide +kernel) (by decide +kernel)
  · decide +kernel
  · intro h hh
    have : h = ['a'] := by
      have e : (Server.new.cacheHtml ['r'] ['a']).1.html ['r'] = some ['a'] := by decide
      rw [e] at hh
      exact (Option.some.inj hh).symm
    subst this
    exact shop_scripted
  · right
    intro _ ev hev
    have h1 : (((Server.new.cacheHtml ['r'] ['a']).1.run
        (fun a b => diff Shape.node (toyParse shop1 shop2 a) (toyParse shop1 shop2 b))
        (.diffRoute ['r'] ['b'])).2.any fun e => match e with
          | .patches _ _ => false
          | _ => true) = false := by decide +kernel
    rw [hev] at h1
    cases ev with
    | patches r ps => exact ⟨r, ps, rfl⟩
    | reload => cases h1
    | headChanged _ => cases h1

/-- What the client shows at the end of that session. -/
example : (((Server.new.cacheHtml ['r'] ['a']).1.keepStep WebDom.lenient
      (fun a b => diff Shape.node (toyParse shop1 shop2 a) (toyParse shop1 shop2 b)) (toyLoad shop1 shop2) ['r']
      ⟨(Document.ofForest shopDrawn).arena, 2⟩ (.diffRoute ['r'] ['b'])).2.arena.tree 2).inner =
    ("<my-map data-hotmeal-opaque=\"map\" class=\"top\"><canvas width=\"9\"></canvas>N</my-map>" ++
      "<p>Closed</p><h1>Shop</h1>").toList := by
  decide +kernel

end Hotmeal
