import Verif.Lemmas.SealedBrowser
import Verif.Lemmas.Mount
import Verif.Lemmas.HtmlPage
import Verif.Props.AnyPatches
import Verif.Props.Live
import Verif.Props.Frame
import Verif.Props.TextEdits
import Mathlib.Data.List.Chain

set_option autoImplicit false
set_option linter.unusedSectionVars false

/-!
# C64: updates through a mount point
-/

namespace Hotmeal

open Mount

variable {H : Type} [DecidableEq H] {hashNode : HKind → Option Str → List H → H} {N : QualName → Prop}

/-! ### Nothing outside changes -/

theorem Patch.SparesRoot.wire {P : Patch} (h : P.SparesRoot) : P.wire.SparesRoot := by
  cases P <;> exact h

theorem samePlace_of_patches (dom : WebDom) {E E' : Arena NodeData} (hE : E.WF) {m : Nat} (hm : m < E.next)
    {ps : List Patch} (hP : ∀ P ∈ ps, P.SparesRoot) (e : dom.applyPatches m E ps = .ok E') :
    E'.WF ∧ E.next ≤ E'.next ∧ SamePlace E E' m := by
  refine ⟨(C53_page_stays_a_tree dom hE hm e).1, ?_⟩
  unfold WebDom.applyPatches at e
  obtain ⟨⟨A, s⟩, h1, e⟩ := res_bind e
  cases e
  have h := Sealed.w_applyLoop dom ps (sealed_init hE hm) (s := fun _ => none) (by
    refine ⟨by simp [Wasm.view], fun s r h0 hr => ?_⟩
    simp [Wasm.view, Arena.upd_apply, if_neg h0] at hr) hP h1
  refine ⟨h.le, fun n hn ha => ⟨h.parent n ⟨hn, ha⟩, h.children n ⟨hn, ha⟩, h.data n ⟨hn, ha⟩⟩, h.bpar, ?_⟩
  have := h.btag
  unfold NodeKind.tag? at this
  unfold tagOf
  exact this

/-- **C64.** Patches of `diff`, or any number of them, that are applied to a mount point of any page: nothing
outside the mount point changes, and the mount point keeps its place and its tag. The page need not show
the old document, and nothing is assumed about hashes or opaque elements. -/
theorem C64_outside_unchanged (dom : WebDom) {old new : Document} (hold : old.Sound) (hnew : new.Sound)
    (hns : SameBodyNs old new) {ps : List Patch} (hd : diff hashNode old new = .ok ps) (k : Nat)
    {E E' : Arena NodeData} (hE : E.WF) {doc m : Nat} (hdoc : doc < E.next) {sel : Target}
    (hm : resolveMountPoint E doc sel = .ok m)
    (e : applyPatchesOn dom E doc sel ((ps.take k).map Patch.wire) = .ok E') :
    (∀ n, n < E.next → ¬ E.Anc m n →
      E'.parent n = E.parent n ∧ E'.children n = E.children n ∧ E'.data n = E.data n) ∧
    E'.parent m = E.parent m ∧ tagOf E' m = tagOf E m := by
  obtain ⟨ps', e', hs⟩ := diff_ok (hashNode := hashNode) hold hnew
  rw [hd] at e'; cases e'
  unfold applyPatchesOn at e
  simp only [hm, bind, Except.bind] at e
  obtain ⟨_, _, h⟩ := samePlace_of_patches dom hE (resolve_lt hE hdoc hm) (fun P hP => by
    obtain ⟨Q, hQ, rfl⟩ := List.mem_map.1 hP
    exact (hs hns Q (List.mem_of_mem_take hQ)).wire) e
  exact ⟨h.out, h.place, h.tag⟩

/-! ### The mount point follows the document -/

/-- The element `m` of the page shows the body of `D`: it has the same content, and a tag and attributes of
its own. -/
structure Hosts (N : QualName → Prop) (E : Arena NodeData) (m : Nat) (D : Document) : Prop where
  wf : E.WF
  lt : m < E.next
  elem : E.ElemBelow m
  lower : E.Lower
  own : ∃ tag attrs, (E.data m).kind = .element tag attrs ∧ (∀ kv ∈ attrs, N kv.1) ∧ attrs.keys.Nodup
  same : Html.unqL (E.forest m) = Html.unqL D.bodyForest

theorem Hosts.mirrors {E : Arena NodeData} {m : Nat} {D : Document} {b : Nat} (h : Hosts N E m D)
    (hD : D.Plain b) (hn : D.NamesIn N b) (φ : List Html → List Html) :
    ∃ k0, Page.MirrorsAs N φ k0 ⟨E, m⟩ D b := by
  have hso := hD.sound.arena
  obtain ⟨hbm, battrs, hbk⟩ := Document.body_spec hD.body
  have hbp := (hso.wf.mem_iff _ _).1 hbm
  obtain ⟨tag, attrs, hk, hnm, hnd⟩ := h.own
  have hw : (D.arena.setData b ⟨.element tag attrs, .html⟩).WF := hso.wf.setData _ _
  generalize hA : D.arena.setData b ⟨.element tag attrs, .html⟩ = A at hw
  have hc : A.children = D.arena.children := by rw [← hA]; rfl
  have hp : A.parent = D.arena.parent := by rw [← hA]; rfl
  have hx : A.next = D.arena.next := by rw [← hA]; rfl
  have hdb : A.data b = ⟨.element tag attrs, .html⟩ := by rw [← hA]; simp [Arena.setData]
  have hdn : ∀ n, n ≠ b → A.data n = D.arena.data n := by
    intro n hne; rw [← hA]; simp [Arena.setData, Arena.upd_apply, hne]
  have hanc : ∀ x n, A.Anc x n ↔ D.arena.Anc x n := by
    intro x n
    constructor
    · intro h; induction h with
      | refl => exact .refl
      | step h1 _ ih => rw [hp] at h1; exact .step h1 ih
    · intro h; induction h with
      | refl => exact .refl
      | step h1 _ ih => rw [← hp] at h1; exact .step h1 ih
  have hf : ∀ n, D.arena.Anc b n → A.forest n = D.arena.forest n := by
    intro n hb
    unfold Arena.forest
    rw [hc]
    apply List.map_congr_left
    intro c hcm
    have hcp := (hso.wf.mem_iff _ _).1 hcm
    refine tree_congr_of hso.wf (by rw [hx]) fun k hk => ⟨by rw [hc], hdn k ?_⟩
    rintro rfl
    have h1 := hk.trans hb
    exact hso.wf.self_parent_ne hcp (hso.wf.anc_antisymm (.step hcp .refl) h1)
  have hbl := (hso.wf.lt_of_parent _ _ hbp).1
  obtain ⟨ψ, hAg⟩ := agree_of_tree (N := N) (D := A) (b := b) hw h.wf (by rw [hx]; exact hbl) h.lt
    ⟨_, by rw [hp]; exact hbp⟩ (by
      intro n ha hne
      rw [hanc] at ha
      by_cases e : n = b
      · subst e; rw [hdb]; exact ⟨_, _, rfl⟩
      · rw [hc] at hne; rw [hdn n e]; exact hD.elemBelow n ha hne) h.elem (by
      intro n t a ha ek
      rw [hanc] at ha
      by_cases e : n = b
      · subst e; rw [hdb] at ek; cases ek; exact ⟨hnm, hnd⟩
      · rw [hdn n e] at ek; exact ⟨hn n t a ha ek, hso.uniq n t a ek⟩) (by
      rw [h.wf.tree_eq, hw.tree_eq, hk, hdb, hf b .refl]
      simp only [Html.ofKind, Html.unq]
      rw [h.same]
      simp only [Document.bodyForest, hD.body])
  refine ⟨.element tag attrs, A, b,
    fun n => if ((diffable D).data n).props.isOpaque = true then some (D.arena.forest n) else none,
    id, ψ, _, ⟨hw, by rw [hx]; exact hbl, rfl, by rw [hdb], ?_, ?_, ?_, ?_⟩, ⟨?_, ?_⟩,
    ⟨_, _, rfl⟩, hnd, hAg⟩
  · intro n _ _ _
    exact ⟨[], by simp [diffable, hc], by simp⟩
  · intro n c ha _ e
    split at e
    · injection e with e; rw [← e]; exact hf n (anc_of_diffable ha)
    · cases e
  · intro n ha _ hne
    rw [id, hdn n hne]
    exact (kindOf_tdataOf (Comparable.not_document D hD (anc_of_diffable ha))).symm
  · intro n s hk
    by_cases e : n = b
    · subst e; rw [hdb] at hk; cases hk
    · rw [hdn n e] at hk; rw [hc]; exact hso.leaf n (.inl ⟨s, hk⟩)
  · intro n _ e; rw [if_neg (by rw [e]; simp)]
  · intro n _ _ e; exact ⟨_, if_pos e, rfl⟩

/-- The attributes of the element that shows the body. -/
theorem Page.MirrorsAs.looks {φ : List Html → List Html} {tag : Str} {attrs : Attrs} {p : Page} {D : Document}
    {b : Nat} (h : p.MirrorsAs N φ (.element tag attrs) D b) :
    looks p.arena p.body = attrs.map fun kv => (serName kv.1, kv.2) := by
  obtain ⟨A, db, body, m, ψ, L, hm, _, _, _, hA⟩ := h
  have h1 : KindSim N (A.data db).kind (p.arena.data (ψ db)).kind := hA.data db hA.rootL
  rw [hA.rootE, hm.rootK] at h1
  obtain ⟨a', e, hw, _⟩ := h1
  unfold Mount.looks
  rw [e]
  exact hw

/-- The body has no attributes. -/
def Document.BareBody (D : Document) (b : Nat) : Prop := ∃ tag, (D.arena.data b).kind = .element tag []

mutual
theorem Html.unq_prune (t : Html) : t.prune.unq = t.unq.prune := by
  cases t with
  | element tag attrs cs => simp only [Html.prune, Html.unq, Html.unqL_pruneL cs]
  | _ => rfl
theorem Html.unqL_pruneL (cs : List Html) : Html.unqL (Html.pruneL cs) = Html.pruneL (Html.unqL cs) := by
  cases cs with
  | nil => rfl
  | cons c cs =>
    have hE : c.unq.isEmptyText = c.isEmptyText := by cases c <;> rfl
    simp only [Html.pruneL, Html.unqL, hE]
    split
    · exact Html.unqL_pruneL cs
    · simp only [Html.unqL, Html.unq_prune c, Html.unqL_pruneL cs]
end

/-- The nodes that the page shows, up to empty texts. -/
theorem Page.Mirrors.nodes {p : Page} {D : Document} {b : Nat} (h : p.Mirrors N Html.pruneL D b)
    (hD : D.Plain b) (hc : D.ClearBody b) :
    Html.pruneL (Html.unqL (p.arena.forest p.body)) = Html.pruneL (Html.unqL D.bodyForest) := by
  obtain ⟨ts, h1, h2⟩ := h.forest hD hc
  rw [Html.redactL_prune, Html.redactL_prune] at h2
  rw [h1, ← Html.unqL_pruneL, h2, Html.unqL_pruneL]

/-- No text that the page shows has children. -/
theorem Page.MirrorsAs.leaf {φ : List Html → List Html} {k0 : NodeKind} {p : Page} {D : Document} {b : Nat}
    (h : Page.MirrorsAs N φ k0 p D b) {n : Nat} {s : Str} (ha : p.arena.Anc p.body n)
    (hk : (p.arena.data n).kind = .text s) : p.arena.children n = [] := by
  obtain ⟨A, db, body, m, ψ, L, hm, hct, _, _, hA⟩ := h
  have key : ∀ n, p.arena.Anc p.body n → ∃ x, L x ∧ ψ x = n := by
    intro n ha
    induction ha with
    | refl => exact ⟨db, hA.rootL, hA.rootE⟩
    | @step n q hp _ ih =>
      obtain ⟨x, hx, rfl⟩ := ih
      have := (hA.ewf.mem_iff _ _).2 hp
      rw [hA.kids x hx] at this
      obtain ⟨y, hy, rfl⟩ := List.mem_map.1 this
      exact ⟨y, hA.down x y hx hy, rfl⟩
  obtain ⟨x, hx, rfl⟩ := key n ha
  have hd := hA.data x hx
  unfold DataSim at hd
  have hk' : (A.data x).kind = .text s := by
    rw [hk] at hd
    cases e : (A.data x).kind with
    | element t a => rw [e] at hd; obtain ⟨_, e, _⟩ := hd; cases e
    | text s' => rw [e] at hd; simp only [KindSim] at hd; exact hd.symm
    | comment s' => rw [e] at hd; simp only [KindSim] at hd; cases hd
    | document => rw [e] at hd; simp only [KindSim] at hd; cases hd
  rw [hA.kids x hx, hm.leaf x s hk']
  rfl

/-- One update through a mount point. -/
theorem Page.MirrorsAs.updateOn {dom : WebDom} {k0 : NodeKind} {E : Arena NodeData} {m doc : Nat} {old new : Document}
    {ob nb : Nat} (hp : Page.MirrorsAs N Html.pruneL k0 ⟨E, m⟩ old ob) (hlow : E.Lower) (hm : m < E.next)
    (hu : Updatable dom hashNode N True old new ob nb) (hob : old.ClearBody ob) (hN : PlainNames N) {sel : Target}
    (hr : resolveMountPoint E doc sel = .ok m) (hs : sel = .body ∨ sel.Outer ∧ new.BareBody nb) :
    ∃ ps E' k1, diff hashNode old new = .ok ps ∧
      applyPatchesOn dom E doc sel (ps.map Patch.wire) = .ok E' ∧
      Page.MirrorsAs N Html.pruneL k1 ⟨E', m⟩ new nb ∧ E'.Lower ∧ E'.WF ∧ E.next ≤ E'.next ∧
      resolveMountPoint E' doc sel = .ok m ∧ SamePlace E E' m ∧
      (new.BareBody nb → Mount.looks E' m = Mount.looks E m) ∧ (Reader.AllHtml E → Reader.AllHtml E') := by
  have hE : E.WF := by
    obtain ⟨A, db, body, m, ψ, L, hm, _, _, _, hA⟩ := hp
    exact hA.ewf
  have hcomp := hu.comparable
  obtain ⟨S0, ps, E', e1, ew, e2, e3⟩ := hp.update hcomp hu.noCollision hu.opaqueAgree hob
    (fun f hb a b hab hop => by
      rw [hcomp.same_forest hu.noCollision hu.opaqueAgree (hu.opaqueSame trivial) hb hab hop])
    hu.moves hN hu.names.2
  rw [hcomp.reports_nil hu.noCollision hu.opaqueAgree (hu.opaqueSame trivial) S0, List.append_nil] at e1
  have hkept := hu.kept _ e1
  have e4 : dom.applyPatches m E ps = .ok E' := by
    rw [WebDom.applyPatches_eq hlow hkept]; exact e2
  obtain ⟨ps', e', hsp⟩ := diff_ok (hashNode := hashNode) hcomp.old.sound hcomp.new.sound
  rw [e1] at e'; cases e'
  obtain ⟨hE', hle, hpl⟩ := samePlace_of_patches dom hE hm (hsp (by
    intro ob' nb' ho hn
    rw [hcomp.old.body] at ho; rw [hcomp.new.body] at hn
    cases ho; cases hn
    exact hcomp.ns)) e4
  have hlook : new.BareBody nb → Mount.looks E' m = Mount.looks E m := by
    rintro ⟨t, hb⟩
    have hpr : ((diffable new).data nb).props = [] := by
      show (tdataOf (new.arena.data nb)).props = []
      simp only [tdataOf, hb]
    rw [hpr] at e3
    have hel : k0.IsElement := by
      obtain ⟨A, db, body, m, ψ, L, _, _, h, _⟩ := hp
      exact h
    obtain ⟨tag, attrs, rfl⟩ := hel
    simp only [Plan.rootKind, if_true] at e3
    exact e3.looks.trans hp.looks.symm
  refine ⟨ps, E', _, e1, ?_, e3, WebDom.lower_applyPatches hlow hkept e2, hE', hle, ?_, hpl, hlook,
    fun h => h.applyPatches e2⟩
  · rw [ew]
    simp only [applyPatchesOn, hr, bind, Except.bind]
    exact e4
  · exact resolve_same hpl hE hE' hle (hs.imp id fun ⟨h1, h2⟩ => ⟨h1, hlook h2⟩) hm hr

/-- **C64.** A page keeps an element up to date that shows the content of a document: the element is found
through a selector for every update. Along any sequence of versions every update succeeds, the selector
finds the same element after it as before, and in the end this element has the content of the last version, node by
node up to empty texts and without children of texts, and nothing outside it has changed. A page whose nodes are all in the namespace of HTML
stays so. If the bodies of the versions have no attributes, then the element keeps its own attributes.

Partial: as in C01 and C28, hash collisions, moves below a sibling and changed opaque content are excluded.
If the body of a version has attributes, then only `"body"` is covered as a selector: see
`C64_mount_point_lost`. -/
theorem C64_mount_point_follows_partial (dom : WebDom) (hN : PlainNames N) (body : Document → Nat)
    {E : Arena NodeData} {m doc : Nat} {sel : Target} {D : Document} {Ds : List Document}
    (hh : Hosts N E m D) (hr : resolveMountPoint E doc sel = .ok m)
    (hu : ∀ A ∈ D :: Ds, Updatable dom hashNode N True A A (body A) (body A))
    (hc : (D :: Ds).IsChain fun A B => Updatable dom hashNode N True A B (body A) (body B))
    (hs : sel = .body ∨ sel.Outer ∧ ∀ A ∈ Ds, A.BareBody (body A)) :
    ∃ E', updatesOn dom hashNode doc sel E D Ds = .ok E' ∧ resolveMountPoint E' doc sel = .ok m ∧
      (E'.tree m).inner = ((D :: Ds).getLast (by simp)).toBodyHtml ∧
      (∀ n, n < E.next → ¬ E.Anc m n →
        E'.parent n = E.parent n ∧ E'.children n = E.children n ∧ E'.data n = E.data n) ∧
      E'.parent m = E.parent m ∧ tagOf E' m = tagOf E m ∧
      ((∀ A ∈ Ds, A.BareBody (body A)) → looks E' m = looks E m) ∧
      Html.pruneL (Html.unqL (E'.forest m)) = Html.pruneL (Html.unqL ((D :: Ds).getLast (by simp)).bodyForest) ∧
      (Reader.AllHtml E → Reader.AllHtml E') ∧
      ∀ n s, E'.Anc m n → (E'.data n).kind = .text s → E'.children n = [] := by
  have key : ∀ (Ds : List Document) (D : Document) (E : Arena NodeData) (k0 : NodeKind),
      Page.MirrorsAs N Html.pruneL k0 ⟨E, m⟩ D (body D) → E.Lower → m < E.next →
      resolveMountPoint E doc sel = .ok m →
      (∀ A ∈ D :: Ds, Updatable dom hashNode N True A A (body A) (body A)) →
      ((D :: Ds).IsChain fun A B => Updatable dom hashNode N True A B (body A) (body B)) →
      (sel = .body ∨ sel.Outer ∧ ∀ A ∈ Ds, A.BareBody (body A)) →
      ∃ E', updatesOn dom hashNode doc sel E D Ds = .ok E' ∧ resolveMountPoint E' doc sel = .ok m ∧
        (E'.tree m).inner = ((D :: Ds).getLast (by simp)).toBodyHtml ∧ SamePlace E E' m ∧
        ((∀ A ∈ Ds, A.BareBody (body A)) → looks E' m = looks E m) ∧
        Html.pruneL (Html.unqL (E'.forest m)) = Html.pruneL (Html.unqL ((D :: Ds).getLast (by simp)).bodyForest) ∧
        (Reader.AllHtml E → Reader.AllHtml E') ∧
        ∀ n s, E'.Anc m n → (E'.data n).kind = .text s → E'.children n = [] := by
    intro Ds
    induction Ds with
    | nil =>
      intro D E k0 hp _ _ hr hu _ _
      have huu := hu D (by simp)
      exact ⟨E, rfl, hr, Page.Mirrors.html ⟨k0, hp⟩ huu.comparable.old
        (huu.comparable.body_clear huu.noCollision huu.opaqueAgree), SamePlace.refl, fun _ => rfl,
        Page.Mirrors.nodes ⟨k0, hp⟩ huu.comparable.old
          (huu.comparable.body_clear huu.noCollision huu.opaqueAgree), id, fun n s ha hk => hp.leaf ha hk⟩
    | cons D2 Ds ih =>
      intro D E k0 hp hlow hm hr hu hc hs
      have huu := hu D (by simp)
      rw [List.isChain_cons_cons] at hc
      obtain ⟨ps, E1, k1, e1, e2, hp1, hlow1, hE1, hle, hr1, hpl, hl, hh1⟩ := hp.updateOn hlow hm hc.1
        (huu.comparable.body_clear huu.noCollision huu.opaqueAgree) hN hr
        (hs.imp id fun ⟨h1, h2⟩ => ⟨h1, h2 D2 (by simp)⟩)
      obtain ⟨E', e3, hr', ht, hpl', hl', hn', hh2, hlf⟩ := ih D2 E1 k1 hp1 hlow1 (by omega) hr1
        (fun A hA => hu A (by simp only [List.mem_cons] at hA ⊢; exact .inr hA)) hc.2
        (hs.imp id fun ⟨h1, h2⟩ => ⟨h1, fun A hA => h2 A (by simp [hA])⟩)
      have hE : E.WF := by
        obtain ⟨A, db, body, m, ψ, L, hm, _, _, _, hA⟩ := hp
        exact hA.ewf
      refine ⟨E', ?_, hr', ?_, hpl.trans hpl' hE hle, fun hb =>
        (hl' fun A hA => hb A (by simp [hA])).trans (hl (hb D2 (by simp))), ?_, fun h => hh2 (hh1 h), hlf⟩
      · simp only [updatesOn, e1, e2, bind, Except.bind]; exact e3
      · rw [ht]; rfl
      · rw [hn']; rfl
  have huu := hu D (by simp)
  obtain ⟨k0, hp⟩ := hh.mirrors huu.comparable.old huu.names.1 Html.pruneL
  obtain ⟨E', h1, h2, h3, h4, h5, h6, h7, h8⟩ := key Ds D E k0 hp hh.lower hh.lt hr hu hc hs
  exact ⟨E', h1, h2, h3, h4.out, h4.place, h4.tag, h5, h6, h7, h8⟩

/-! ### Example and counterexample -/

/-- A page with a navigation bar, an element for the content and a footer. -/
def shell (cs : List Html) : List Html :=
  [ex "nav" [] [.text "menu".toList], ex "div" [("id", "app"), ("class", "wide")] cs,
    ex "footer" [] [.text "end".toList]]

/-- `body > #app` -/
def appSel : Target := .css (Css.child (.type "body".toList) (.id "app".toList)).matches

theorem shell_hosts : Hosts bareName (Document.ofForest (shell ex1)).arena 5 (.ofForest ex1) := by
  have p : Html.plainL (shell ex1) = true := by decide +kernel
  have hb : ∀ n, (Document.ofForest (shell ex1)).arena.Anc 5 n → (Document.ofForest (shell ex1)).arena.Anc 2 n :=
    fun n h => (Arena.Anc.step (by decide +kernel) .refl).trans h
  refine ⟨(ofForest_spec _ p).1.arena.wf, by decide +kernel,
    fun n ha => (comparable_ofForest p p).old.elemBelow n (hb n ha), lower_ofForest (by decide +kernel),
    ⟨"div".toList, [(⟨none, [], "id".toList⟩, "app".toList), (⟨none, [], "class".toList⟩, "wide".toList)],
      by decide +kernel, by decide, by decide⟩, ?_⟩
  have hw := (ofForest_spec _ p).1.arena.wf
  have h3 := (ofForest_spec _ p).2.2.1
  have hc : (Document.ofForest (shell ex1)).arena.children 2 = [3, 5, 14] := by decide +kernel
  simp only [Document.bodyForest, (ofForest_spec _ p).2.1, Arena.forest, hc, List.map_cons, List.map_nil] at h3
  have h5 : (Document.ofForest (shell ex1)).arena.tree 5 = ex "div" [("id", "app"), ("class", "wide")] ex1 := by
    unfold shell at h3 ⊢
    injection h3 with _ h3
    injection h3
  rw [hw.tree_eq] at h5
  have hk : ((Document.ofForest (shell ex1)).arena.data 5).kind = .element "div".toList
    [(⟨none, [], "id".toList⟩, "app".toList), (⟨none, [], "class".toList⟩, "wide".toList)] := by decide +kernel
  rw [hk] at h5
  simp only [Html.ofKind, ex, Html.element.injEq] at h5
  rw [h5.2.2, (ofForest_spec ex1 (by decide +kernel)).2.2.1]

/-- The hypotheses of `C64_mount_point_follows_partial` hold for a page with a mount point below the body
and three versions of its content. -/
example : PlainNames bareName ∧ Hosts bareName (Document.ofForest (shell ex1)).arena 5 (.ofForest ex1) ∧
    resolveMountPoint (Document.ofForest (shell ex1)).arena 0 appSel = .ok 5 ∧
    (∀ A ∈ [Document.ofForest ex1, .ofForest ex2, .ofForest ex1],
      Updatable WebDom.lenient Shape.node bareName True A A 2 2) ∧
    ([Document.ofForest ex1, .ofForest ex2, .ofForest ex1].IsChain fun A B =>
      Updatable WebDom.lenient Shape.node bareName True A B 2 2) ∧
    appSel.Outer ∧ ∀ A ∈ [Document.ofForest ex2, .ofForest ex1], A.BareBody 2 := by
  have p1 : Html.plainL ex1 = true := by decide +kernel
  have p2 : Html.plainL ex2 = true := by decide +kernel
  have kept : ∀ cs, cs = ex1 ∨ cs = ex2 →
      (Document.ofForest cs).AllIn WebDom.lenient.KeepsTag WebDom.lenient.KeepsName 2 := by
    rintro cs (rfl | rfl)
    · exact allIn_of_keptB (ofForest_spec _ p1).1.arena.wf (by decide +kernel) (by decide +kernel)
    · exact allIn_of_keptB (ofForest_spec _ p2).1.arena.wf (by decide +kernel) (by decide +kernel)
  have names : ∀ cs, cs = ex1 ∨ cs = ex2 → (Document.ofForest cs).NamesIn bareName 2 := by
    rintro cs (rfl | rfl)
    · exact namesIn_of_bareB (ofForest_spec _ p1).1.arena.wf (by decide +kernel) (by decide +kernel)
    · exact namesIn_of_bareB (ofForest_spec _ p2).1.arena.wf (by decide +kernel) (by decide +kernel)
  have up : ∀ cs ds, (cs = ex1 ∨ cs = ex2) → (ds = ex1 ∨ ds = ex2) →
      Updatable WebDom.lenient Shape.node bareName True (.ofForest cs) (.ofForest ds) 2 2 := by
    intro cs ds hc hd
    have q : ∀ cs, cs = ex1 ∨ cs = ex2 → Html.plainL cs = true := by rintro cs (rfl | rfl) <;> assumption
    refine ⟨comparable_ofForest (q _ hc) (q _ hd), noCollision_shape _ _ _,
      (opaqueFixed_ofForest (q _ hc) (q _ hd)).agree, fun _ => (opaqueFixed_ofForest (q _ hc) (q _ hd)).same,
      .inl ?_, ⟨names _ hc, names _ hd⟩,
      fun _ h => C31_names_from_new _ (comparable_ofForest (q _ hc) (q _ hd)) (noCollision_shape _ _ _)
        (opaqueFixed_ofForest (q _ hc) (q _ hd)).agree (kept _ hd) h⟩
    rcases hc with rfl | rfl <;> rcases hd with rfl | rfl <;>
      exact noMoveBelowSelf_of_movesSafe (by decide +kernel)
  have hq : querySelector (Document.ofForest (shell ex1)).arena 0
      (Css.child (.type "body".toList) (.id "app".toList)).matches = some 5 := by decide +kernel
  refine ⟨plainNames_bare, shell_hosts, by simp only [appSel, resolveMountPoint, hq], ?_, ?_, Css.outer _, ?_⟩
  · intro A hA
    simp only [List.mem_cons, List.not_mem_nil, or_false] at hA
    rcases hA with rfl | rfl | rfl <;> exact up _ _ (by simp) (by simp)
  · simp only [List.isChain_cons_cons, List.isChain_singleton, and_true]
    exact ⟨up _ _ (by simp) (by simp), up _ _ (by simp) (by simp)⟩
  · intro A hA
    simp only [List.mem_cons, List.not_mem_nil, or_false] at hA
    rcases hA with rfl | rfl <;> exact ⟨"body".toList, by decide +kernel⟩

/-- The hypotheses of `C64_outside_unchanged` hold for the same page when it receives patches that were made
for other content. -/
example : (Document.ofForest ex2).Sound ∧ (Document.ofForest ex1).Sound ∧
    SameBodyNs (.ofForest ex2) (.ofForest ex1) ∧
    querySelector (Document.ofForest (shell ex1)).arena 0 (Css.id "app".toList).matches = some 5 ∧
    (do let ps ← diff Shape.node (.ofForest ex2) (.ofForest ex1)
        applyPatchesOn WebDom.lenient (Document.ofForest (shell ex1)).arena 0
          (.css (Css.id "app".toList).matches) ((ps.take 2).map Patch.wire)).toBool = true := by
  have p1 : Html.plainL ex1 = true := by decide +kernel
  have p2 : Html.plainL ex2 = true := by decide +kernel
  refine ⟨(ofForest_spec _ p2).1, (ofForest_spec _ p1).1, ?_, by decide +kernel, by decide +kernel⟩
  intro ob nb ho hn
  rw [(ofForest_spec _ p2).2.1] at ho
  rw [(ofForest_spec _ p1).2.1] at hn
  cases ho; cases hn
  decide +kernel

/-- **C64, violated** if the body of a version has attributes. They are written to the mount point and replace
its own, among them the identifier by which the selector finds it: the next update fails. -/
theorem C64_mount_point_lost : ∃ (cs ds : List Html) (attrs : Attrs) (E : Arena NodeData) (m : Nat),
    Hosts bareName E m (.ofForest cs) ∧ querySelector E 0 (Css.id "app".toList).matches = some m ∧
    (match updatesOn WebDom.lenient Shape.node 0 (.css (Css.id "app".toList).matches) E (.ofForest cs)
        [.ofForestIn attrs ds] with
      | .ok E' => decide (looks E' m = attrs.map (fun kv => (serName kv.1, kv.2)) ∧
          (E'.tree m).inner = (Document.ofForestIn attrs ds).toBodyHtml)
      | .error _ => false) = true ∧
    (match updatesOn WebDom.lenient Shape.node 0 (.css (Css.id "app".toList).matches) E (.ofForest cs)
        [.ofForestIn attrs ds, .ofForest cs] with
      | .ok _ => false
      | .error e => decide (e = .noMount)) = true :=
  ⟨ex1, ex2, [(⟨none, [], "class".toList⟩, "dark".toList)], (Document.ofForest (shell ex1)).arena, 5,
    shell_hosts, by decide +kernel, by decide +kernel, by decide +kernel⟩

end Hotmeal
