import Verif.Model.Client
import Verif.Lemmas.Swap
import Verif.Props.Browser
import Verif.Props.Wire
import Verif.Props.Opaque

set_option autoImplicit false
set_option linter.unusedSectionVars false

/-!
# C28: live-reload clients converge
-/

namespace Hotmeal

variable {H : Type} [DecidableEq H] {hashNode : HKind → Option Str → List H → H}
  {old new : Document} {ob nb : Nat} {N : QualName → Prop}

theorem Trace.browserSwap {B : Arena TData} {ins : List Nat} {parse : Str → Document} {g : Nat → Nat}
    {J : Nat → Prop} {root eb : Nat} (hB : B.WF) (hN : PlainNames N) {w w2 : World}
    {ops : List EditOp} {ps : List Patch}
    (h : Trace B ins (swapStep parse) g J w ops ps w2) (hops : ∀ op ∈ ops, op.Names N B)
    {φ : Nat → Nat} {L : Nat → Prop} {E : Arena NodeData} {t : Slots}
    (hA : Agree N root eb φ L w.D w.slots E t) :
    ∃ φ' L' E' t', Wasm.applyLoop eb E t ps = .ok (E', t') ∧
      Agree N root eb φ' L' w2.D w2.slots E' t' ∧ ∀ n, L n → L' n ∧ φ' n = φ n := by
  induction h generalizing φ L E t with
  | nil => exact ⟨φ, L, E, t, rfl, hA, fun n hn => ⟨hn, rfl⟩⟩
  | cons hc hs hg hr _ ih =>
    obtain ⟨φ1, L1, E1, t1, e1, hA1, hx1⟩ := hA.swapStep hN parse hr
      (convertOp_names hB (hops _ (by simp)) hc) hs
    obtain ⟨φ2, L2, E2, t2, e2, hA2, hx2⟩ := ih (fun op hop => hops op (by simp [hop])) hA1
    refine ⟨φ2, L2, E2, t2, by simp only [Wasm.applyLoop, e1, bind, Except.bind, e2], hA2, fun n hn => ?_⟩
    obtain ⟨g1, g2⟩ := hx1 n hn
    exact ⟨(hx2 n g1).1, by rw [(hx2 n g1).2, g2]⟩

/-- The page shows the body of the document, possibly with surplus empty text nodes, and with opaque
elements whose content agrees with that of the document as far as `φ` can tell. The element that shows
the body may have a tag and attributes of its own; they are as in `k0`. -/
def Page.MirrorsAs (N : QualName → Prop) (φ : List Html → List Html) (k0 : NodeKind) (p : Page)
    (D : Document) (b : Nat) : Prop :=
  ∃ (A : Arena NodeData) (db : Nat) (body : Nat → Option (List Html)) (m ψ : Nat → Nat) (L : Nat → Prop),
    Mirror (diffable D) b A db k0 body m ∧ Mirror.Contents D b body φ ∧ k0.IsElement ∧ k0.Clean ∧
    Agree N db p.body ψ L A (Arena.upd (fun _ => none) 0 (some db)) p.arena (fun _ => none)

/-- The same, whatever the tag and the attributes of the element that shows the body. -/
def Page.Mirrors (N : QualName → Prop) (φ : List Html → List Html) (p : Page) (D : Document)
    (b : Nat) : Prop := ∃ k0, p.MirrorsAs N φ k0 D b

/-- The page is what the browser builds from the HTML that the parser turned into `D`: the same body,
up to the representation of attribute names, and HTML elements have lower-case attribute names. -/
structure Page.Loads (p : Page) (D : Document) (b : Nat) : Prop where
  wf : p.arena.WF
  lt : p.body < p.arena.next
  elem : p.arena.ElemBelow p.body
  same : (p.arena.tree p.body).unq = (D.arena.tree b).unq
  lower : p.arena.Lower

theorem Document.Plain.elemBelow {D : Document} {b : Nat} (h : D.Plain b) : D.arena.ElemBelow b := by
  intro n ha hne
  cases e : (D.arena.data n).kind with
  | element tag attrs => exact ⟨tag, attrs, rfl⟩
  | document => exact absurd e (Comparable.not_document D h ha)
  | text s => exact absurd (h.sound.arena.leaf n (.inl ⟨s, e⟩)) hne
  | comment s => exact absurd (h.sound.arena.leaf n (.inr ⟨s, e⟩)) hne

theorem Page.Loads.mirrors {p : Page} {D : Document} {b : Nat} (h : p.Loads D b) (hD : D.Plain b)
    (hn : D.NamesIn N b) (φ : List Html → List Html) : p.Mirrors N φ D b := by
  have hso := hD.sound.arena
  obtain ⟨hbm, battrs, hbk⟩ := Document.body_spec hD.body
  have hbp := (hso.wf.mem_iff _ _).1 hbm
  obtain ⟨ψ, hA⟩ := agree_of_tree (N := N) hso.wf h.wf (hso.wf.lt_of_parent _ _ hbp).1 h.lt ⟨_, hbp⟩
    hD.elemBelow h.elem (fun n tag attrs ha ek => ⟨hn n tag attrs ha ek, hso.uniq n tag attrs ek⟩)
    h.same
  refine ⟨(D.arena.data b).kind, D.arena, b,
    fun n => if ((diffable D).data n).props.isOpaque = true then some (D.arena.forest n) else none,
    id, ψ, _, ⟨hso.wf, (hso.wf.lt_of_parent _ _ hbp).1, rfl, rfl, ?_, ?_, ?_, ?_⟩, ⟨?_, ?_⟩,
    ⟨_, _, hbk⟩, ?_, hA⟩
  · intro n _ _ _
    exact ⟨[], by simp [diffable], by simp⟩
  · intro n c _ _ e
    split at e
    · injection e
    · cases e
  · intro n ha _ _
    exact (kindOf_tdataOf (Comparable.not_document D hD (anc_of_diffable ha))).symm
  · intro n s hk; exact hso.leaf n (.inl ⟨s, hk⟩)
  · intro n _ e; rw [if_neg (by rw [e]; simp)]
  · intro n _ _ e; exact ⟨_, if_pos e, rfl⟩
  · rw [hbk]; exact hso.uniq _ _ _ hbk

theorem rootKind_clean {k : NodeKind} {a : Attrs} (hk : k.IsElement) (hc : k.Clean)
    (ha : a.keys.Nodup) : (Plan.rootKind k a).IsElement ∧ (Plan.rootKind k a).Clean := by
  obtain ⟨tag, attrs, rfl⟩ := hk
  refine ⟨⟨_, _, rfl⟩, ?_⟩
  show (if a = [] then attrs else a).keys.Nodup
  split
  · exact hc
  · exact ha

/-- The body of the document is not opaque. -/
abbrev Document.ClearBody (D : Document) (b : Nat) : Prop :=
  ((diffable D).data b).props.isOpaque = false

/-- What the page shows. -/
theorem Page.Mirrors.forest {φ : List Html → List Html} {p : Page} {D : Document} {b : Nat}
    (h : p.Mirrors N φ D b) (hD : D.Plain b) (hc : D.ClearBody b) :
    ∃ ts, Html.unqL (p.arena.forest p.body) = Html.unqL ts ∧
      Html.redactL φ ts = Html.redactL φ D.bodyForest := by
  obtain ⟨k0, A, db, body, m, ψ, L, hm, hct, ⟨tag, attrs, hk⟩, _, hA⟩ := h
  have ht := hA.tree db hA.rootL
  rw [hA.rootE, hA.ewf.tree_eq, hm.wf.tree_eq, hm.rootK, hk] at ht
  refine ⟨A.forest db, ?_, ?_⟩
  · cases e : (p.arena.data p.body).kind with
    | element tag' attrs' =>
      rw [e] at ht
      simp only [Html.ofKind, Html.unq, Html.element.injEq] at ht
      exact ht.2.2
    | _ => rw [e] at ht; simp [Html.ofKind, Html.unq] at ht
  · rw [hm.forest_redact hD.sound.arena.wf (fun b' hb' => Comparable.not_document D hD hb') hct hc]
    simp only [Document.bodyForest, hD.body]

/-- The inner HTML of the page. -/
theorem Page.Mirrors.html {p : Page} {D : Document} {b : Nat} (h : p.Mirrors N Html.pruneL D b)
    (hD : D.Plain b) (hc : D.ClearBody b) : (p.arena.tree p.body).inner = D.toBodyHtml := by
  obtain ⟨ts, h1, h2⟩ := h.forest hD hc
  obtain ⟨k0, A, db, body, m, ψ, L, hm, hct, ⟨tag, attrs, hk⟩, _, hA⟩ := h
  have ht := hA.tree db hA.rootL
  rw [hA.rootE, hA.ewf.tree_eq, hm.wf.tree_eq, hm.rootK, hk] at ht
  rw [Html.redactL_prune, Html.redactL_prune] at h2
  rw [hA.ewf.tree_eq]
  cases e : (p.arena.data p.body).kind with
  | element tag' attrs' =>
    show Html.serL false (p.arena.forest p.body) = _
    rw [toBodyHtml_eq, ← Html.serL_unqL, h1, Html.serL_unqL, ← Html.serL_pruneL, h2,
      Html.serL_pruneL]
  | _ => rw [e] at ht; simp [Html.ofKind, Html.unq] at ht

mutual
theorem InsertContent.Fine.wire (hN : PlainNames N) : ∀ {c : InsertContent}, c.Fine N → c.wire = c
  | .element _ _ _, h => by
    rw [InsertContent.wire, Attrs.wire_eq fun kv hkv => hN.pre _ (h.1 kv hkv), FineL.wireL hN h.2.2]
  | .text _, _ => rfl
  | .comment _, _ => rfl
theorem InsertContent.FineL.wireL (hN : PlainNames N) :
    ∀ {cs : List InsertContent}, InsertContent.FineL N cs → InsertContent.wireL cs = cs
  | [], _ => rfl
  | _ :: _, h => by rw [InsertContent.wireL, Fine.wire hN h.1, FineL.wireL hN h.2]
end

theorem Regular.wire {J : Nat → Prop} {D : Arena NodeData} {slots : Slots} {P : Patch}
    (hN : PlainNames N) (hr : Regular J D slots P) (hP : P.Names N) : P.wire = P := by
  cases hr with
  | updateProps q n tag attrs ns changes =>
    simp only [Patch.wire]
    congr 1
    conv => rhs; rw [← List.map_id changes]
    apply List.map_congr_left
    intro c hc
    obtain ⟨k, v⟩ := c
    cases k with
    | text => rfl
    | attr q =>
      simp only [PropKey.wire, id]
      rw [QualName.wire_eq (hN.pre q (hP _ hc q rfl))]
  | insert q nk cs p pos slot =>
    cases nk with
    | element tag attrs =>
      simp only [insertPatch, Patch.wire]
      rw [Attrs.wire_eq fun kv hkv => hN.pre _ (hP.1 kv hkv), hP.2.wireL hN]
    | _ => rfl
  | _ => rfl

/-- The patches of a run arrive unchanged. -/
theorem Trace.wire {B : Arena TData} {ins : List Nat} {step : StepFn} {g : Nat → Nat}
    {J : Nat → Prop} (hB : B.WF) (hN : PlainNames N) {w w2 : World} {ops : List EditOp} {ps : List Patch}
    (h : Trace B ins step g J w ops ps w2) (hops : ∀ op ∈ ops, op.Names N B) :
    ps.map Patch.wire = ps := by
  induction h with
  | nil => rfl
  | cons hc hs hg hr _ ih =>
    rw [List.map_cons, ih fun op hop => hops op (by simp [hop]),
      hr.wire hN (convertOp_names hB (hops _ (by simp)) hc)]

/-- One update: the computed patches, up to the reports about opaque elements, turn a page that shows
the old body into one that shows the new body. -/
theorem Page.MirrorsAs.update {φ : List Html → List Html} {k0 : NodeKind} {p : Page} (h : Comparable old new ob nb)
    (hc : NoCollision hashNode (buildTree old ob) (diffable new) nb)
    (ho : OpaqueAgree hashNode old new ob nb) (hob : old.ClearBody ob)
    (hφ : ∀ f, Built old ob (buildTree old ob) f → ∀ a b,
      (a, b) ∈ (diffMatching (oldTree hashNode old ob) (newTree hashNode new nb)).pairs →
      ((diffable new).data b).props.isOpaque = true →
      φ (old.arena.forest (f a)) = φ (new.arena.forest b))
    (hf : NoMoveBelowSelf hashNode old new ob nb ∨ NoInversion hashNode old new ob nb)
    (hN : PlainNames N) (hn : new.NamesIn N nb) (hp : p.MirrorsAs N φ k0 old ob) :
    ∃ S0 ps A, diff hashNode old new = .ok (ps ++ reports hashNode old new ob nb S0) ∧
      ps.map Patch.wire = ps ∧ Wasm.applyPatches p.body p.arena ps = .ok A ∧
      ({ p with arena := A } : Page).MirrorsAs N φ (Plan.rootKind k0 ((diffable new).data nb).props) new nb := by
  obtain ⟨D, db, body, m, ψ, L, hm, hct, hk, hcl, hA⟩ := hp
  obtain ⟨g0, hb⟩ := buildTree_spec old h.old.sound.arena.leafy ob
  have hpl := h.plan hashNode hc ho hb
  have hwo := h.old.sound.arena.wf
  have hbody : ∀ n, old.arena.Anc ob n → ((diffable old).data n).props.isOpaque = false → body n = none :=
    hct.none
  -- outside the body nothing is known, so the description of opaque content is restricted
  have hm0 : Mirror (diffable old) ob D db k0
      (fun n => if ((diffable old).data n).props.isOpaque = true then body n else none) m :=
    ⟨hm.wf, hm.db_lt, hm.root, hm.rootK, fun b h1 h2 h3 => hm.kids b h1 h2 (by
        by_cases e : ((diffable old).data b).props.isOpaque = true
        · rw [if_pos e] at h3; exact h3
        · exact hbody b (anc_of_diffable h1) (by simpa using e)),
      fun b c h1 h2 h3 => hm.opq b c h1 h2 (by
        by_cases e : ((diffable old).data b).props.isOpaque = true
        · rw [if_pos e] at h3; exact h3
        · rw [if_neg e] at h3; cases h3), hm.data, hm.leaf⟩
  have hd := hb.docRel_of_mirror h.old.sound.arena.leafy hm0
    (fun b e => if_neg (by rw [e]; simp)) hob hk hcl
  obtain ⟨S0, ps, w, g, _, e, ht, _, hm', _⟩ := h.run hc ho hf
    (lawful_swap (fun _ => Document.new) db) hd
    (slots := Arena.upd (fun _ => none) 0 (some db)) (by simp)
  rw [hm.rootK] at hm'
  have hnames := h.script_names hc ho hn
  have hwB := Built.diffable_wf h.new.sound.arena.wf
  obtain ⟨ψ1, L1, E1, t1, e4, hA1, _⟩ := ht.browserSwap hwB hN hnames hA
  have hclean := rootKind_clean (k := k0) (a := ((diffable new).data nb).props)
    hk hcl (by
      obtain ⟨_, attrs, hbk⟩ := Document.body_spec h.new.body
      show (tdataOf (new.arena.data nb)).props.keys.Nodup
      simp only [tdataOf, hbk]
      exact h.new.sound.arena.uniq _ _ _ hbk)
  refine ⟨S0, ps, E1, e, ht.wire hwB hN hnames, ?_, w.D, db, _, g, ψ1, L1, hm',
    h.contents_of hc ho ?_, hclean.1, hclean.2, hA1.reset⟩
  · simp only [Wasm.applyPatches, e4, bind, Except.bind]
  · intro a b hab hop
    rw [← hφ g0 hb a b hab hop]
    have hlt := (hpl.lt a b hab).1
    have hra := hb.reach a hlt
    have ha0 : a ≠ 0 := by
      rintro rfl
      have := hpl.opq 0 b hab
      rw [hpl.rootProps, hop] at this
      cases this
    have hopa : ((diffable old).data (g0 a)).props.isOpaque = true := by
      have := hpl.opq a b hab
      rw [hop, hb.data a hlt ha0] at this
      exact this
    have hin : ¬ InsideOpaque (diffable old) ob (g0 a) := fun e =>
      (hpl.clear a b hab).1 ((hb.inside_iff hwo hob hra).2 e)
    have hanc := hb.ganc hwo hra
    obtain ⟨c, h1, h2⟩ := hct.some (g0 a) hanc hin hopa
    have := hm.opq (g0 a) c (diffable_anc hanc) hin h1
    rw [← h2, ← this]

/-- One update, whatever the element that shows the body. -/
theorem Page.Mirrors.update {φ : List Html → List Html} {p : Page} (h : Comparable old new ob nb)
    (hc : NoCollision hashNode (buildTree old ob) (diffable new) nb)
    (ho : OpaqueAgree hashNode old new ob nb) (hob : old.ClearBody ob)
    (hφ : ∀ f, Built old ob (buildTree old ob) f → ∀ a b,
      (a, b) ∈ (diffMatching (oldTree hashNode old ob) (newTree hashNode new nb)).pairs →
      ((diffable new).data b).props.isOpaque = true →
      φ (old.arena.forest (f a)) = φ (new.arena.forest b))
    (hf : NoMoveBelowSelf hashNode old new ob nb ∨ NoInversion hashNode old new ob nb)
    (hN : PlainNames N) (hn : new.NamesIn N nb) (hp : p.Mirrors N φ old ob) :
    ∃ S0 ps A, diff hashNode old new = .ok (ps ++ reports hashNode old new ob nb S0) ∧
      ps.map Patch.wire = ps ∧ Wasm.applyPatches p.body p.arena ps = .ok A ∧
      ({ p with arena := A } : Page).Mirrors N φ new nb := by
  obtain ⟨k0, hp⟩ := hp
  obtain ⟨S0, ps, A, e1, e2, e3, e4⟩ := hp.update h hc ho hob hφ hf hN hn
  exact ⟨S0, ps, A, e1, e2, e3, _, e4⟩

/-- Reports about opaque elements do not change a page, but may fail. -/
theorem Wasm.applyLoop_reports {root : Nat} {A : Arena NodeData} {slots : Slots} {rs : List Patch}
    (h : ∀ P ∈ rs, P.isReport = true) : Wasm.applyLoop root A slots rs = .ok (A, slots) ∨
      (rs ≠ [] ∧ ∃ e, Wasm.applyLoop root A slots rs = .error e) := by
  induction rs with
  | nil => exact .inl rfl
  | cons P rs ih =>
    have hP := h P (by simp)
    cases P with
    | opaqueChanged path html =>
      simp only [Wasm.applyLoop, Wasm.applyPatch, bind, Except.bind]
      cases Wasm.findNode root A slots path with
      | error e => exact .inr ⟨by simp, e, rfl⟩
      | ok n =>
        simp only
        cases Wasm.asElement A n with
        | error e => exact .inr ⟨by simp, e, rfl⟩
        | ok x =>
          rcases ih fun P hP => h P (by simp [hP]) with h | ⟨_, e, h⟩
          · exact .inl h
          · exact .inr ⟨by simp, e, h⟩
    | _ => cases hP

theorem Wasm.applyLoop_append {root : Nat} (rs : List Patch) : ∀ {ps : List Patch} {A A1 : Arena NodeData}
    {slots slots1 : Slots}, Wasm.applyLoop root A slots ps = .ok (A1, slots1) →
      Wasm.applyLoop root A slots (ps ++ rs) = Wasm.applyLoop root A1 slots1 rs
  | [], _, _, _, _, h => by cases h; rfl
  | P :: ps, A, A1, slots, slots1, h => by
    simp only [Wasm.applyLoop, List.cons_append, bind, Except.bind] at h ⊢
    cases e : Wasm.applyPatch root A slots P with
    | error x => rw [e] at h; cases h
    | ok w =>
      rw [e] at h
      exact Wasm.applyLoop_append rs h

theorem Wasm.applyPatches_reports {root : Nat} {A A1 : Arena NodeData} {ps rs : List Patch}
    (h : ∀ P ∈ rs, P.isReport = true) (e : Wasm.applyPatches root A ps = .ok A1) :
    Wasm.applyPatches root A (ps ++ rs) = .ok A1 ∨
      (rs ≠ [] ∧ ∃ e, Wasm.applyPatches root A (ps ++ rs) = .error e) := by
  unfold Wasm.applyPatches at e ⊢
  cases e1 : Wasm.applyLoop root A (fun _ => none) ps with
  | error x => rw [e1] at e; cases e
  | ok w =>
    rw [e1] at e
    cases e
    simp only [bind, Except.bind]
    rw [Wasm.applyLoop_append rs e1]
    rcases Wasm.applyLoop_reports (root := root) (A := w.1) (slots := w.2) h with h | ⟨h1, x, h2⟩
    · left; rw [h]
    · right; exact ⟨h1, x, by rw [h2]⟩

/-- What is assumed of two HTML texts that follow each other on a route; `strict` asks in addition that
the content of opaque elements does not change. -/
structure Updatable (dom : WebDom) (hashNode : HKind → Option Str → List H → H) (N : QualName → Prop)
    (strict : Prop) (old new : Document) (ob nb : Nat) : Prop where
  comparable : Comparable old new ob nb
  noCollision : NoCollision hashNode (buildTree old ob) (diffable new) nb
  opaqueAgree : OpaqueAgree hashNode old new ob nb
  opaqueSame : strict → OpaqueSame hashNode old new ob nb
  moves : NoMoveBelowSelf hashNode old new ob nb ∨ NoInversion hashNode old new ob nb
  names : old.NamesIn N ob ∧ new.NamesIn N nb
  kept : ∀ ps, diff hashNode old new = .ok ps → ∀ P ∈ ps, dom.Keeps P

/-- The page shows the body of the document and has lower-case attribute names on HTML elements. -/
def Page.Shows (N : QualName → Prop) (φ : List Html → List Html) (p : Page) (D : Document) (b : Nat) :
    Prop := p.Mirrors N φ D b ∧ p.arena.Lower

theorem Page.Loads.shows {p : Page} {D : Document} {b : Nat} (h : p.Loads D b) (hD : D.Plain b)
    (hn : D.NamesIn N b) (φ : List Html → List Html) : p.Shows N φ D b := ⟨h.mirrors hD hn φ, h.lower⟩

open Server

/-- The calls that a client of `route` can follow: everything except `cache_html` for the route, which
changes the cached HTML without any event, and HTML that is not `ok`. -/
def Server.Call.Follows (ok : Str → Prop) (route : Str) : Call → Prop
  | .cacheHtml r _ => r ≠ route
  | .diffRoute r h => r = route → ok h
  | .diffRouteWithHead r h _ => r = route → ok h
  | _ => True

/-- One call: handling the event either does not fail, and then the page shows what is cached, or it
fails, which is possible only if opaque content changes. -/
theorem Server.live_step {φ : List Html → List Html} {strict : Prop} (dom : WebDom)
    (parse : Str → Document) (body : Str → Nat) (load : Str → Page) (route : Str) (ok : Str → Prop)
    (hN : PlainNames N) (hload : ∀ h, ok h → (load h).Loads (parse h) (body h))
    (hpair : ∀ a b, ok a → ok b → Updatable dom hashNode N strict (parse a) (parse b) (body a) (body b))
    (hφ : strict ∨ ∀ cs ds, φ cs = φ ds) (S : Server) (p : Page) (c : Call) (hc : c.Follows ok route)
    (hinv : ∀ h, S.html route = some h → ok h ∧ p.Shows N φ (parse h) (body h)) :
    (∃ p', S.liveStep dom (fun a b => diff hashNode (parse a) (parse b)) load route p c =
      .ok ((S.run (fun a b => diff hashNode (parse a) (parse b)) c).1, p') ∧
      ∀ h, (S.run (fun a b => diff hashNode (parse a) (parse b)) c).1.html route = some h →
        ok h ∧ p'.Shows N φ (parse h) (body h)) ∨
      (¬ strict ∧ ∃ e, S.liveStep dom (fun a b => diff hashNode (parse a) (parse b)) load route p c =
        .error e) := by
  have hfresh : ∀ h, ok h → (load h).Shows N φ (parse h) (body h) := fun h hh =>
    (hload h hh).shows (hpair h h hh hh).comparable.old (hpair h h hh hh).names.1 φ
  -- a diff for the client's own route
  have hdiff : ∀ (S : Server) h', ok h' →
      (∀ h, S.html route = some h → ok h ∧ p.Shows N φ (parse h) (body h)) →
      (S.diffRoute (fun a b => diff hashNode (parse a) (parse b)) route h').1.html route = some h' ∧
      ((∃ p', Page.deliver dom
        ((((S.diffRoute (fun a b => diff hashNode (parse a) (parse b)) route h').1.html route).map
          load).getD p) p
        (S.diffRoute (fun a b => diff hashNode (parse a) (parse b)) route h').2 = .ok p' ∧
        p'.Shows N φ (parse h') (body h')) ∨
      (¬ strict ∧ ∃ e, Page.deliver dom
        ((((S.diffRoute (fun a b => diff hashNode (parse a) (parse b)) route h').1.html route).map
          load).getD p) p
        (S.diffRoute (fun a b => diff hashNode (parse a) (parse b)) route h').2 = .error e)) := by
    intro S h' hh' hinv
    unfold Server.diffRoute
    cases e : S.html route with
    | none =>
      exact ⟨by simp [Server.put], .inl ⟨load h', by simp [Page.deliver, Page.handle, Server.put],
        hfresh h' hh'⟩⟩
    | some h =>
      obtain ⟨hh, hm⟩ := hinv h e
      simp only
      by_cases eh : h = h'
      · subst eh
        rw [if_pos rfl]
        exact ⟨e, .inl ⟨p, rfl, hm⟩⟩
      · rw [if_neg eh]
        have hu := hpair h h' hh hh'
        have huu := hpair h h hh hh
        obtain ⟨S0, ps, A, e1, ew, e2, e3⟩ := hm.1.update hu.comparable hu.noCollision hu.opaqueAgree
          (huu.comparable.body_clear huu.noCollision huu.opaqueAgree)
          (fun f hb a b hab hop => by
            rcases hφ with hs | hφ
            · rw [hu.comparable.same_forest hu.noCollision hu.opaqueAgree (hu.opaqueSame hs) hb hab hop]
            · exact hφ _ _) hu.moves hN hu.names.2
        have hrep := reports_isReport (hashNode := hashNode) (old := parse h) (new := parse h')
          (ob := body h) (nb := body h') S0
        have hnil : strict → reports hashNode (parse h) (parse h') (body h) (body h') S0 = [] :=
          fun hs => hu.comparable.reports_nil hu.noCollision hu.opaqueAgree (hu.opaqueSame hs) S0
        generalize reports hashNode (parse h) (parse h') (body h) (body h') S0 = rs at e1 hrep hnil
        simp only [e1]
        have hw : (ps ++ rs).map Patch.wire = ps ++ rs := by
          rw [List.map_append, ew]
          congr 1
          conv => rhs; rw [← List.map_id rs]
          apply List.map_congr_left
          intro P hP
          have := hrep P hP
          cases P with
          | opaqueChanged q c => rfl
          | _ => cases this
        have hkept := hu.kept _ e1
        have hlow : A.Lower := WebDom.lower_applyPatches hm.2 (fun P hP => hkept P (by simp [hP])) e2
        have hres := Wasm.applyPatches_reports hrep e2
        rw [← WebDom.applyPatches_eq hm.2 hkept] at hres
        cases el : ps ++ rs with
        | nil =>
          refine ⟨by simp [Server.put], .inl ⟨p, rfl, ?_⟩⟩
          obtain ⟨rfl, rfl⟩ := List.append_eq_nil_iff.1 el
          simp only [Wasm.applyPatches, Wasm.applyLoop, bind, Except.bind, Except.ok.injEq] at e2
          subst e2
          exact ⟨e3, hlow⟩
        | cons P qs =>
          rw [el] at hw hres
          refine ⟨by simp [Server.put], ?_⟩
          rcases hres with hres | ⟨hne, x, hres⟩
          · refine .inl ⟨{ p with arena := A }, ?_, e3, hlow⟩
            simp only [Page.deliver, Page.handle, List.isEmpty_cons, Bool.false_eq_true, if_false, hw,
              hres, bind, Except.bind]
          · refine .inr ⟨fun hs => hne (hnil hs), x, ?_⟩
            simp only [Page.deliver, Page.handle, List.isEmpty_cons, Bool.false_eq_true, if_false, hw,
              hres, bind, Except.bind]
  -- a diff for another route
  have hother : ∀ (S : Server) r h', r ≠ route →
      (S.diffRoute (fun a b => diff hashNode (parse a) (parse b)) r h').1.html route =
        S.html route := by
    intro S r h' hr
    unfold Server.diffRoute
    have : ∀ v, Server.put S.html r v route = S.html route := by
      intro v; unfold Server.put; rw [if_neg (fun e => hr e.symm)]
    cases S.html r with
    | none => exact this _
    | some old =>
      simp only
      split
      · rfl
      · split
        · split
          · exact this _
          · exact this _
        · exact this _
  unfold Server.liveStep
  cases c with
  | cacheHtml r h =>
    refine .inl ⟨p, by simp only [Server.run]; split <;> rfl, fun h' hh' => hinv h' ?_⟩
    simp only [Server.run, Server.cacheHtml, Server.put] at hh'
    rw [if_neg (fun e => hc e.symm)] at hh'
    exact hh'
  | cacheHead r i =>
    exact .inl ⟨p, by simp only [Server.run]; split <;> rfl, fun h' hh' => hinv h' hh'⟩
  | removeRoute r =>
    refine .inl ⟨p, by simp only [Server.run]; split <;> rfl, fun h' hh' => hinv h' ?_⟩
    simp only [Server.run, Server.removeRoute, Server.put] at hh'
    split at hh'
    · cases hh'
    · exact hh'
  | clear => exact .inl ⟨p, rfl, fun h' hh' => by simp [Server.run, Server.clear] at hh'⟩
  | diffRoute r h' =>
    by_cases hr : r = route
    · subst hr
      obtain ⟨e2, h1⟩ := hdiff S h' (hc rfl) hinv
      rcases h1 with ⟨p', e1, e3⟩ | ⟨hs, x, e1⟩
      · refine .inl ⟨p', ?_, fun h hh => ?_⟩
        · simp only [Server.run, Call.route, if_true]
          simp only [e1, bind, Except.bind]
        · simp only [Server.run] at hh
          rw [e2] at hh; cases hh
          exact ⟨hc rfl, e3⟩
      · refine .inr ⟨hs, x, ?_⟩
        simp only [Server.run, Call.route, if_true]
        simp only [e1, bind, Except.bind]
    · refine .inl ⟨p, ?_, fun h hh => hinv h ?_⟩
      · simp only [Server.run, Call.route, Option.some.injEq, if_neg hr]
      · simp only [Server.run] at hh
        rw [hother S r h' hr] at hh
        exact hh
  | diffRouteWithHead r h' i =>
    by_cases hr : r = route
    · subst hr
      simp only [Server.run, Server.diffRouteWithHead]
      by_cases hch : (S.cacheHead r i).2 = true
      · rw [if_pos hch]
        refine .inl ⟨load h', ?_, fun h hh => ?_⟩
        · simp [Call.route, Page.deliver, Page.handle, Server.put, bind, Except.bind]
        · simp only [Server.put, if_true, Option.some.injEq] at hh
          subst hh
          exact ⟨hc rfl, hfresh h' (hc rfl)⟩
      · rw [if_neg hch]
        obtain ⟨e2, h1⟩ := hdiff (S.cacheHead r i).1 h' (hc rfl) hinv
        rcases h1 with ⟨p', e1, e3⟩ | ⟨hs, x, e1⟩
        · refine .inl ⟨p', ?_, fun h hh => ?_⟩
          · simp only [Call.route, if_true]
            simp only [e1, bind, Except.bind]
          · rw [e2] at hh; cases hh
            exact ⟨hc rfl, e3⟩
        · refine .inr ⟨hs, x, ?_⟩
          simp only [Call.route, if_true]
          simp only [e1, bind, Except.bind]
    · refine .inl ⟨p, ?_, fun h hh => hinv h ?_⟩
      · simp only [Call.route, Option.some.injEq, if_neg hr]
      · simp only [Server.run, Server.diffRouteWithHead] at hh
        split at hh
        · simp only [Server.put] at hh
          rw [if_neg (fun e => hr e.symm)] at hh
          exact hh
        · rw [hother _ r h' hr] at hh
          exact hh

/-- The induction behind the C28 theorems: handling the events either does not fail, and then the page
shows what is cached, or it fails, which is possible only if opaque content changes. -/
theorem Server.live_invariant {φ : List Html → List Html} {strict : Prop} (dom : WebDom) (parse : Str → Document)
    (body : Str → Nat) (load : Str → Page) (route : Str) (ok : Str → Prop) (hN : PlainNames N)
    (hload : ∀ h, ok h → (load h).Loads (parse h) (body h))
    (hpair : ∀ a b, ok a → ok b → Updatable dom hashNode N strict (parse a) (parse b) (body a) (body b))
    (hφ : strict ∨ ∀ cs ds, φ cs = φ ds) :
    ∀ (calls : List Call) (S : Server) (p : Page), (∀ c ∈ calls, c.Follows ok route) →
      (∀ h, S.html route = some h → ok h ∧ p.Shows N φ (parse h) (body h)) →
      (∃ S' p', S.liveRun dom (fun a b => diff hashNode (parse a) (parse b)) load route p calls =
          .ok (S', p') ∧
        S' = S.runAll (fun a b => diff hashNode (parse a) (parse b)) calls ∧
        ∀ h, S'.html route = some h → ok h ∧ p'.Shows N φ (parse h) (body h)) ∨
      (¬ strict ∧ ∃ e, S.liveRun dom (fun a b => diff hashNode (parse a) (parse b)) load route p calls =
        .error e) := by
  intro calls
  induction calls with
  | nil => intro S p _ hinv; exact .inl ⟨S, p, rfl, rfl, hinv⟩
  | cons c cs ih =>
    intro S p hcs hinv
    have hstep := Server.live_step (φ := φ) (strict := strict) dom parse body load route ok hN hload hpair
      hφ S p c (hcs c (by simp)) hinv
    rcases hstep with ⟨p', e1, hinv'⟩ | ⟨hs, e, e1⟩
    · rcases ih _ p' (fun c hc => hcs c (by simp [hc])) hinv' with ⟨S', p'', e2, e3, e4⟩ | ⟨hs, e, e2⟩
      · exact .inl ⟨S', p'', by simp only [Server.liveRun, e1, bind, Except.bind, e2],
          by rw [e3]; rfl, e4⟩
      · exact .inr ⟨hs, e, by simp only [Server.liveRun, e1, bind, Except.bind, e2]⟩
    · exact .inr ⟨hs, e, by simp only [Server.liveRun, e1, bind, Except.bind]⟩

/-- **C28**, partial: take a client that loaded the HTML cached for its route. After any sequence of
calls to the server, with the events about the route delivered to the client, handling the events has
not failed, and the client shows the body of the HTML that is then cached for the route.

Missing from the full statement: HTML whose opaque elements change (`Updatable`; then the browser
dispatches an event instead, and see the next theorem) and pairs of HTML for which the diff moves a
node below itself (`Updatable`; the latter is violated, `C28_violated`), and attribute names that are
not told apart by how they are written (`PlainNames`). The browser is assumed to build the same body
from the HTML as the parser (`Page.Loads`). -/
theorem C28_client_converges_partial (dom : WebDom) (parse : Str → Document) (body : Str → Nat) (load : Str → Page)
    (route : Str) (ok : Str → Prop) (hN : PlainNames N)
    (hload : ∀ h, ok h → (load h).Loads (parse h) (body h))
    (hpair : ∀ a b, ok a → ok b → Updatable dom hashNode N True (parse a) (parse b) (body a) (body b))
    (calls : List Call) (hcalls : ∀ c ∈ calls, c.Follows ok route)
    (S : Server) (h0 : Str) (hS : S.html route = some h0) (hok : ok h0) :
    ∃ S' p, S.liveRun dom (fun a b => diff hashNode (parse a) (parse b)) load route (load h0) calls =
        .ok (S', p) ∧
      S' = S.runAll (fun a b => diff hashNode (parse a) (parse b)) calls ∧
      ∀ h, S'.html route = some h → (p.arena.tree p.body).inner = (parse h).toBodyHtml := by
  rcases Server.live_invariant (φ := Html.pruneL) dom parse body load route ok hN hload hpair (.inl trivial)
    calls S (load h0) hcalls (by
      intro h hh
      rw [hS] at hh; cases hh
      exact ⟨hok, (hload h0 hok).shows (hpair _ _ hok hok).comparable.old
        (hpair _ _ hok hok).names.1 _⟩) with ⟨S', p, e1, e2, e3⟩ | ⟨hn, _⟩
  · refine ⟨S', p, e1, e2, fun h hh => ?_⟩
    obtain ⟨h1, h2⟩ := e3 h hh
    have hu := hpair h h h1 h1
    exact h2.1.html hu.comparable.old (hu.comparable.body_clear hu.noCollision hu.opaqueAgree)
  · exact absurd trivial hn

/-- **C28** when opaque elements change, partial: as long as handling the events has not failed (which
it may when a report about an opaque element does not find the element, `C28_violated_opaque`), the
client shows the body of the HTML cached for the route, except for the content of opaque elements:
the page is, up to the representation of attribute names, a forest `ts` that equals the body content
of the cached HTML when empty texts and the content of opaque elements are left out.

Missing from the full statement: elements that become opaque or cease to be opaque (`Updatable`), and
otherwise what is missing from `C28_client_converges_partial`. -/
theorem C28_client_converges_opaque_partial (dom : WebDom) (parse : Str → Document) (body : Str → Nat)
    (load : Str → Page) (route : Str) (ok : Str → Prop) (hN : PlainNames N)
    (hload : ∀ h, ok h → (load h).Loads (parse h) (body h))
    (hpair : ∀ a b, ok a → ok b → Updatable dom hashNode N False (parse a) (parse b) (body a) (body b))
    (calls : List Call) (hcalls : ∀ c ∈ calls, c.Follows ok route)
    (S : Server) (h0 : Str) (hS : S.html route = some h0) (hok : ok h0) (S' : Server) (p : Page)
    (hrun : S.liveRun dom (fun a b => diff hashNode (parse a) (parse b)) load route (load h0) calls =
        .ok (S', p)) :
    S' = S.runAll (fun a b => diff hashNode (parse a) (parse b)) calls ∧
      ∀ h, S'.html route = some h → ∃ ts, Html.unqL (p.arena.forest p.body) = Html.unqL ts ∧
        Html.maskL ts = Html.maskL (parse h).bodyForest := by
  rcases Server.live_invariant (φ := fun _ => []) dom parse body load route ok hN hload hpair
    (.inr fun _ _ => rfl) calls S (load h0) hcalls (by
      intro h hh
      rw [hS] at hh; cases hh
      exact ⟨hok, (hload h0 hok).shows (hpair _ _ hok hok).comparable.old
        (hpair _ _ hok hok).names.1 _⟩) with ⟨S1, p1, e1, e2, e3⟩ | ⟨_, e, e1⟩
  · rw [hrun] at e1
    cases e1
    refine ⟨e2, fun h hh => ?_⟩
    obtain ⟨h1, h2⟩ := e3 h hh
    have hu := hpair h h h1 h1
    exact h2.1.forest hu.comparable.old (hu.comparable.body_clear hu.noCollision hu.opaqueAgree)
  · rw [hrun] at e1; cases e1

/-! ### Example and counterexample -/

/-- A toy parser: the text `a` is parsed as `cs` and every other text as `ds`. -/
def toyParse (cs ds : List Html) (h : Str) : Document := .ofForest (if h = ['a'] then cs else ds)
/-- The page that the browser builds for the toy parser. -/
def toyLoad (cs ds : List Html) (h : Str) : Page := ⟨(toyParse cs ds h).arena, 2⟩

/-- The hypotheses of `C28_client_converges_partial` hold for a route that goes back and forth between
`ex1` and `ex2`. -/
example : PlainNames bareName ∧ (∀ h, (toyLoad ex1 ex2 h).Loads (toyParse ex1 ex2 h) 2) ∧
    (∀ a b, Updatable WebDom.lenient Shape.node bareName True (toyParse ex1 ex2 a) (toyParse ex1 ex2 b) 2 2) ∧
    (∀ c ∈ [Call.diffRoute ['r'] ['b'], .diffRouteWithHead ['s'] ['c'] ['d'], .diffRoute ['r'] ['a'],
        .removeRoute ['r'], .clear, .diffRoute ['r'] ['b']],
      c.Follows (fun _ => True) ['r']) ∧
    (Server.new.cacheHtml ['r'] ['a']).1.html ['r'] = some ['a'] := by
  have p1 : Html.plainL ex1 = true := by decide +kernel
  have p2 : Html.plainL ex2 = true := by decide +kernel
  have q : ∀ h : Str, Html.plainL (if h = ['a'] then ex1 else ex2) = true := by
    intro h; split <;> assumption
  have lower : ∀ h, (toyParse ex1 ex2 h).arena.Lower := by
    intro h
    unfold toyParse
    split <;> exact lower_ofForest (by decide +kernel)
  have kept : ∀ h, (toyParse ex1 ex2 h).AllIn WebDom.lenient.KeepsTag WebDom.lenient.KeepsName 2 := by
    intro h
    unfold toyParse
    split
    · exact allIn_of_keptB (ofForest_spec _ p1).1.arena.wf (by decide +kernel) (by decide +kernel)
    · exact allIn_of_keptB (ofForest_spec _ p2).1.arena.wf (by decide +kernel) (by decide +kernel)
  have names : ∀ h, (toyParse ex1 ex2 h).NamesIn bareName 2 := by
    intro h
    have hw := (ofForest_spec _ (q h)).1.arena.wf
    unfold toyParse
    split
    · exact namesIn_of_bareB (ofForest_spec _ p1).1.arena.wf (by decide +kernel) (by decide +kernel)
    · exact namesIn_of_bareB (ofForest_spec _ p2).1.arena.wf (by decide +kernel) (by decide +kernel)
  refine ⟨plainNames_bare, fun h => ?_, fun a b => ⟨comparable_ofForest (q a) (q b),
    noCollision_shape _ _ _, (opaqueFixed_ofForest (q a) (q b)).agree,
    fun _ => (opaqueFixed_ofForest (q a) (q b)).same, .inl ?_, ⟨names a, names b⟩,
    fun _ hd => C31_names_from_new _ (comparable_ofForest (q a) (q b)) (noCollision_shape _ _ _)
      (opaqueFixed_ofForest (q a) (q b)).agree (kept b) hd⟩, ?_, by decide⟩
  · refine ⟨(ofForest_spec _ (q h)).1.arena.wf, ?_,
      (comparable_ofForest (q h) (q h)).old.elemBelow, rfl, lower h⟩
    have hso := (ofForest_spec _ (q h)).1.arena.wf
    obtain ⟨hbm, _⟩ := Document.body_spec (ofForest_spec _ (q h)).2.1
    exact (hso.lt_of_parent _ _ ((hso.mem_iff _ _).1 hbm)).1
  · unfold toyParse
    split <;> split <;> exact noMoveBelowSelf_of_movesSafe (by decide +kernel)
  · intro c hc
    simp only [List.mem_cons, List.not_mem_nil, or_false] at hc
    rcases hc with rfl | rfl | rfl | rfl | rfl | rfl <;> simp [Call.Follows]

/-- The hypotheses of `C28_client_converges_opaque_partial` hold for a route that goes from `opaque1` to
`opaque2` and back, the content of an opaque element changes, and handling the events does not fail. -/
example : PlainNames bareName ∧ (∀ h, (toyLoad opaque1 opaque2 h).Loads (toyParse opaque1 opaque2 h) 2) ∧
    (∀ a b, Updatable WebDom.lenient Shape.node bareName False (toyParse opaque1 opaque2 a)
      (toyParse opaque1 opaque2 b) 2 2) ∧
    (match (Server.new.cacheHtml ['r'] ['a']).1.liveRun WebDom.lenient
        (fun a b => diff Shape.node (toyParse opaque1 opaque2 a) (toyParse opaque1 opaque2 b))
        (toyLoad opaque1 opaque2) ['r'] (toyLoad opaque1 opaque2 ['a'])
        [.diffRoute ['r'] ['b'], .diffRoute ['r'] ['a'], .diffRoute ['r'] ['b']] with
      | .ok (S, p) => decide (S.html ['r'] = some ['b'] ∧
          (p.arena.tree p.body).inner = ("<p id=\"q\"><u></u><v></v><w></w>two</p>" ++
            "<d data-hotmeal-opaque=\"\"><b></b>x</d><e data-hotmeal-opaque=\"\">y</e>").toList)
      | .error _ => false) = true := by
  have p1 : Html.tidyL true opaque1 = true := by decide +kernel
  have p2 : Html.tidyL true opaque2 = true := by decide +kernel
  have q : ∀ h : Str, Html.tidyL true (if h = ['a'] then opaque1 else opaque2) = true := by
    intro h; split <;> assumption
  have lower : ∀ h, (toyParse opaque1 opaque2 h).arena.Lower := by
    intro h
    unfold toyParse
    split <;> exact lower_ofForest (by decide +kernel)
  have kept : ∀ h, (toyParse opaque1 opaque2 h).AllIn WebDom.lenient.KeepsTag WebDom.lenient.KeepsName 2 := by
    intro h
    unfold toyParse
    split
    · exact allIn_of_keptB (ofForest_tidy _ p1).1.arena.wf (by decide +kernel) (by decide +kernel)
    · exact allIn_of_keptB (ofForest_tidy _ p2).1.arena.wf (by decide +kernel) (by decide +kernel)
  have names : ∀ h, (toyParse opaque1 opaque2 h).NamesIn bareName 2 := by
    intro h
    unfold toyParse
    split
    · exact namesIn_of_bareB (ofForest_tidy _ p1).1.arena.wf (by decide +kernel) (by decide +kernel)
    · exact namesIn_of_bareB (ofForest_tidy _ p2).1.arena.wf (by decide +kernel) (by decide +kernel)
  have agree : ∀ a b, OpaqueAgree Shape.node (toyParse opaque1 opaque2 a) (toyParse opaque1 opaque2 b)
      2 2 := by
    intro a b
    unfold toyParse OpaqueAgree AgreeOpaque
    split <;> split <;> decide +kernel
  refine ⟨plainNames_bare, fun h => ?_, fun a b => ⟨comparable_ofForest_tidy (q a) (q b),
    noCollision_shape _ _ _, agree a b, fun h => h.elim, .inl ?_, ⟨names a, names b⟩,
    fun _ hd => C31_names_from_new _ (comparable_ofForest_tidy (q a) (q b)) (noCollision_shape _ _ _)
      (agree a b) (kept b) hd⟩, by decide +kernel⟩
  · refine ⟨(ofForest_tidy _ (q h)).1.arena.wf, ?_,
      (comparable_ofForest_tidy (q h) (q h)).old.elemBelow, rfl, lower h⟩
    have hso := (ofForest_tidy _ (q h)).1.arena.wf
    obtain ⟨hbm, _⟩ := Document.body_spec (ofForest_tidy _ (q h)).2.1
    exact (hso.lt_of_parent _ _ ((hso.mem_iff _ _).1 hbm)).1
  · unfold toyParse
    split <;> split <;> exact noMoveBelowSelf_of_movesSafe (by decide +kernel)

/-- **C28** is violated by opaque elements: when an element before a changed opaque element is removed,
the report about the latter has the wrong path, and handling the event fails. -/
theorem C28_violated_opaque : ∃ cs ds : List Html,
    Comparable (.ofForest cs) (.ofForest ds) 2 2 ∧
    OpaqueAgree Shape.node (.ofForest cs) (.ofForest ds) 2 2 ∧
    NoMoveBelowSelf Shape.node (.ofForest cs) (.ofForest ds) 2 2 ∧
    (match (Server.new.cacheHtml ['r'] ['a']).1.liveRun WebDom.lenient
        (fun a b => diff Shape.node (toyParse cs ds a) (toyParse cs ds b)) (toyLoad cs ds) ['r']
        (toyLoad cs ds ['a']) [.diffRoute ['r'] ['b']] with
      | .ok _ => false
      | .error _ => true) = true :=
  ⟨[ex "p" [] [.text "q".toList], ex "d" [("data-hotmeal-opaque", "")] [.text "a".toList]],
    [ex "d" [("data-hotmeal-opaque", "")] [.text "b".toList]],
    comparable_ofForest_tidy (o := true) (by decide +kernel) (by decide +kernel),
    by unfold OpaqueAgree AgreeOpaque; decide +kernel,
    noMoveBelowSelf_of_movesSafe (by decide +kernel), by decide +kernel⟩

/-- **C28** is violated in general: there are two plain documents and a collision-free hash such that a
client that loaded the first one and handles the event of the update to the second one without error
does not show the second one. -/
theorem C28_violated : ∃ cs ds : List Html, Html.plainL cs = true ∧ Html.plainL ds = true ∧
    (∀ A B nb, NoCollision Shape.node A B nb) ∧
    (match (Server.new.cacheHtml ['r'] ['a']).1.liveRun WebDom.lenient
        (fun a b => diff Shape.node (toyParse cs ds a) (toyParse cs ds b)) (toyLoad cs ds) ['r']
        (toyLoad cs ds ['a']) [.diffRoute ['r'] ['b']] with
      | .ok (S, p) => decide (S.html ['r'] = some ['b'] ∧
          (p.arena.tree p.body).inner ≠ (toyParse cs ds ['b']).toBodyHtml)
      | .error _ => false) = true :=
  ⟨bad1, bad2, by decide +kernel, by decide +kernel, noCollision_shape, by decide +kernel⟩

/-- Three texts: three elements; the same with an `svg` after them; the same with another class on the `svg`. -/
def svgParse (h : Str) : Document := .ofForest (
  if h = ['a'] then [ex "u" [] [], ex "v" [] [], ex "w" [] []]
  else if h = ['b'] then [ex "u" [] [], ex "v" [] [], ex "w" [] [],
    ex "svg" [("viewBox", "0 0 9 9"), ("class", "x")] [ex "g" [] [], ex "path" [] [], ex "use" [] []]]
  else [ex "u" [] [], ex "v" [] [], ex "w" [] [],
    ex "svg" [("viewBox", "0 0 9 9"), ("class", "y")] [ex "g" [] [], ex "path" [] [], ex "use" [] []]])

/-- **C28** is violated by names with upper-case letters: a `viewBox` that arrives with an inserted
`svg` becomes a `viewbox`, and loses its value as soon as another attribute of the `svg` changes, as
the client looks the kept value up as `viewBox`. -/
theorem C28_violated_case :
    (match (Server.new.cacheHtml ['r'] ['a']).1.liveRun WebDom.lenient
        (fun a b => diff Shape.node (svgParse a) (svgParse b)) (fun h => ⟨(svgParse h).arena, 2⟩) ['r']
        ⟨(svgParse ['a']).arena, 2⟩ [.diffRoute ['r'] ['b'], .diffRoute ['r'] ['c']] with
      | .ok (S, p) => decide (S.html ['r'] = some ['c'] ∧
          (svgParse ['c']).toBodyHtml = ("<u></u><v></v><w></w>" ++
            "<svg viewBox=\"0 0 9 9\" class=\"y\"><g></g><path></path><use></use></svg>").toList ∧
          (p.arena.tree p.body).inner = ("<u></u><v></v><w></w>" ++
            "<svg viewbox=\"\" class=\"y\"><g></g><path></path><use></use></svg>").toList)
      | .error _ => false) = true := by decide +kernel

/-- Two texts: an `svg` with a gradient, and without. -/
def gradientParse (h : Str) : Document := .ofForest (
  if h = ['a'] then [ex "u" [] []] else [ex "u" [] [], ex "svg" [] [ex "linearGradient" [] []]])

/-- **C28** is violated by element names with upper-case letters: a `linearGradient` that arrives with an inserted
`svg` becomes a `lineargradient`, which is not a gradient. -/
theorem C28_violated_tag_case :
    (match (Server.new.cacheHtml ['r'] ['a']).1.liveRun WebDom.lenient
        (fun a b => diff Shape.node (gradientParse a) (gradientParse b)) (fun h => ⟨(gradientParse h).arena, 2⟩) ['r']
        ⟨(gradientParse ['a']).arena, 2⟩ [.diffRoute ['r'] ['b']] with
      | .ok (S, p) => decide (S.html ['r'] = some ['b'] ∧
          (gradientParse ['b']).toBodyHtml = "<u></u><svg><linearGradient></linearGradient></svg>".toList ∧
          (p.arena.tree p.body).inner = "<u></u><svg><lineargradient></lineargradient></svg>".toList)
      | .error _ => false) = true := by decide +kernel

end Hotmeal
