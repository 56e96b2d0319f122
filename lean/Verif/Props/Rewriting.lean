import Verif.Lemmas.RewriteRun
import Verif.Props.RoundTrip

set_option autoImplicit false
set_option linter.unusedSectionVars false

/-!
# C62: the patches turn every copy of the old body into the new one

`Dialect.run` (`Spec/Patch.lean`) describes patches as rewriting of trees, without nodes, ids or slots of an
arena. Here it is shown that the patch list of `diff`, read this way, turns the tree of the old body into the
tree of the new body. By C46 and C47 every document and every page that shows the tree of the old body is
patched the same way.
-/

namespace Hotmeal

variable {H : Type} [DecidableEq H] {hashNode : HKind → Option Str → List H → H} {old new : Document}
  {ob nb : Nat} {N : QualName → Prop}

/-- Below the body, only elements have children. -/
theorem Comparable.parted (h : Comparable old new ob nb) : old.arena.Parted (OutsideOf old.arena ob) := by
  intro m hm hc
  have hw := h.old.sound.arena.wf
  obtain ⟨c, hcm⟩ := List.exists_mem_of_ne_nil _ hc
  have hp := (hw.mem_iff _ _).1 hcm
  have hlt := (hw.lt_of_parent _ _ hp).2
  have ha : old.arena.Anc ob m := Classical.byContradiction fun hn => hm ⟨hlt, hn⟩
  rcases h.old.sound.arena.container_of_child hp with e | e
  · exact absurd e (Comparable.not_document old h.old ha)
  · exact e

theorem Trace.names {parse : Str → Document} {B : Arena TData} {ins : List Nat} {g : Nat → Nat} {J : Nat → Prop}
    (hB : B.WF) {w w2 : World} {ops : List EditOp} {ps : List Patch}
    (h : Trace B ins (forgetStep parse) g J w ops ps w2) (hops : ∀ op ∈ ops, op.Names N B) :
    ∀ P ∈ ps, P.Names N := by
  induction h with
  | nil => exact fun _ h => by cases h
  | cons hc _ _ _ _ ih =>
    intro Q hQ
    rcases List.mem_cons.1 hQ with rfl | hQ
    · exact convertOp_names hB (hops _ List.mem_cons_self) hc
    · exact ih (fun op hop => hops op (List.mem_cons_of_mem _ hop)) Q hQ

/-- The patches can be carried out as rewriting of trees. -/
theorem Comparable.rewriting (h : Comparable old new ob nb)
    (hc : NoCollision hashNode (buildTree old ob) (diffable new) nb)
    (ho : OpaqueFixed hashNode old new ob nb)
    (hf : NoMoveBelowSelf hashNode old new ob nb ∨ NoInversion hashNode old new ob nb)
    {parse : Str → Document} (hp : ∀ s, (parse s).arena.Sound) :
    ∃ ps σ, diff hashNode old new = .ok ps ∧
      (Dialect.library (parsedContent parse)).run (Store.init (old.arena.tree ob)) ps = some σ ∧
      (Dialect.library (parsedContent parse)).Roomy (Store.init (old.arena.tree ob)) ps ∧
      (∀ P ∈ ps, P.isReport = false) ∧ ∀ N, new.NamesIn N nb → ∀ P ∈ ps, P.Names N := by
  obtain ⟨f, hd, hbt⟩ := h.docRel_old
  obtain ⟨S0, ps, w, g, hS0, e, ht, hg, hm, hfr⟩ := h.run hc ho.agree hf (lawful_forget parse ob) hd
    (slots := Arena.upd (fun _ => none) 0 (some ob)) (by simp)
  rw [h.reports_nil hc ho.agree ho.same, List.append_nil] at e
  have hw := h.old.sound.arena.wf
  have hlt : ob < old.arena.next := by
    obtain ⟨hbm, _⟩ := Document.body_spec h.old.body
    exact (hw.lt_of_parent _ _ ((hw.mem_iff _ _).1 hbm)).1
  obtain ⟨σ, e1, _, h2, h3⟩ := Rep.regular_run (fence_of hw hlt) hp (hbt.not_surplus _) ht
    (rep_init hw hlt (by simp)) h.parted (by
      intro s hs
      simp only [Arena.upd_apply] at hs
      simp only [Store.init]
      split
      · simp
      · next e => simp [e] at hs)
  have sn := h.new.sound.arena
  have hBw : (diffable new).WF := ⟨sn.wf.lt_of_parent, sn.wf.mem_iff, sn.wf.nodup, sn.wf.acyclic⟩
  exact ⟨ps, σ, e, e1, h2, h3, fun N hn => ht.names hBw (h.script_names hc ho.agree hn)⟩

theorem parsed_new_sound : ∀ s : Str, ((fun _ => Document.new : Str → Document) s).arena.Sound :=
  fun _ => Document.new_sound.arena

/-- **C62**, partial: the patch list of `diff`, read as rewriting of trees, turns the tree of the old body into
that of the new body: the content is the same up to empty texts, and the attributes are those of the new body if
it has any. (`content` is what the library makes of the content of opaque elements; it does not matter here.)

Missing from the full statement: as for `C01_round_trip_partial`, and attributes of a new body without
attributes (`C05_violated`). -/
theorem C62_rewriting_gives_the_new_body_partial (content : Str → List Html) (h : Comparable old new ob nb)
    (hc : NoCollision hashNode (buildTree old ob) (diffable new) nb)
    (ho : OpaqueFixed hashNode old new ob nb)
    (hf : NoMoveBelowSelf hashNode old new ob nb ∨ NoInversion hashNode old new ob nb) :
    ∃ ps σ attrs cs nattrs, diff hashNode old new = .ok ps ∧
      (Dialect.library content).run (Store.init (old.arena.tree ob)) ps = some σ ∧
      σ 0 = some (.element "body".toList attrs cs) ∧ Html.pruneL cs = Html.pruneL new.bodyForest ∧
      new.arena.tree nb = .element "body".toList nattrs new.bodyForest ∧ (nattrs ≠ [] → attrs = nattrs) := by
  obtain ⟨ps, σ, e, e1, _, h3, _⟩ := h.rewriting hc ho hf parsed_new_sound
  obtain ⟨D', d1, d2, d3, _, _, hw', _⟩ := C46_patches_rewrite_the_tree (fun _ => Document.new)
    h.old.sound.arena.wf h.old.body parsed_new_sound e1
  obtain ⟨body, ps', A, g, e4, e5, _, hm, _, hb, hcn⟩ := h.native hc ho hf (fun _ => Document.new)
  rw [e] at e4; cases e4
  rw [d1] at e5; cases e5
  obtain ⟨_, oattrs, hok⟩ := Document.body_spec h.old.body
  obtain ⟨_, nattrs, hnk⟩ := Document.body_spec h.new.body
  have hkd := hm.rootK
  have hnp : ((diffable new).data nb).props = nattrs := by
    show (tdataOf (new.arena.data nb)).props = _
    simp only [tdataOf, hnk]
  rw [hok, hnp] at hkd
  simp only [Plan.rootKind] at hkd
  refine ⟨ps, σ, if nattrs = [] then oattrs else nattrs, A.forest ob, nattrs, e, ?_, ?_, ?_, ?_, ?_⟩
  · rw [Dialect.library_run content _ h3]; exact e1
  · rw [d3, hw'.tree_eq]
    show some (Html.ofKind (A.data ob).kind (A.forest ob)) = _
    rw [hkd]; rfl
  · unfold Document.bodyForest
    rw [h.new.body]
    exact hm.forest h.new.sound.arena.wf (fun b hb => Comparable.not_document new h.new hb) hcn
      (h.body_clear hc ho.agree)
  · rw [h.new.sound.arena.wf.tree_eq, hnk]
    simp only [Html.ofKind, Document.bodyForest, h.new.body]
  · intro hne
    rw [if_neg hne]

/-- **C62**, partial, for documents: the patches of `diff old new` apply to every document that shows the body of
`old`, and give it the body of `new`. The document may be another one than `old`: parsed again, edited into the
same content, with other nodes, another head and other content outside the body, which does not change. Missing:
as for `C62_rewriting_gives_the_new_body_partial`. -/
theorem C62_any_copy_is_updated_partial (parse : Str → Document) (hp : ∀ s, (parse s).arena.Sound)
    (h : Comparable old new ob nb)
    (hc : NoCollision hashNode (buildTree old ob) (diffable new) nb)
    (ho : OpaqueFixed hashNode old new ob nb)
    (hf : NoMoveBelowSelf hashNode old new ob nb ∨ NoInversion hashNode old new ob nb) {D : Document} {b : Nat}
    (hw : D.arena.WF) (hb : D.body = some b) (hsame : D.arena.tree b = old.arena.tree ob) :
    ∃ ps D', diff hashNode old new = .ok ps ∧ applyPatches parse D ps = .ok D' ∧
      D'.toBodyHtml = new.toBodyHtml ∧ D'.doctype = D.doctype ∧ D'.root = D.root ∧
      ∀ n, n < D.arena.next → ¬ D.arena.Anc b n →
        D'.arena.data n = D.arena.data n ∧ D'.arena.parent n = D.arena.parent n ∧
        D'.arena.children n = D.arena.children n := by
  obtain ⟨ps, σ, attrs, cs, _, e, e1, e2, e3, _⟩ :=
    C62_rewriting_gives_the_new_body_partial (parsedContent parse) h hc ho hf
  rw [← hsame] at e1
  obtain ⟨D', d1, d2, d3, d4, d5, hw', _, d6⟩ := C46_patches_rewrite_the_tree parse hw hb hp e1
  obtain ⟨D'', d7, d8⟩ := C46_patched_html parse hw hb hp e1 e2
  rw [d1] at d7; cases d7
  refine ⟨ps, D', e, d1, ?_, d4, d5, d6⟩
  rw [d8, toBodyHtml_eq, ← Html.serL_pruneL, e3, Html.serL_pruneL]

/-- The names of the tree are those of the document. -/
theorem Document.NamesIn.tree {D : Document} {b : Nat} (hs : D.arena.Sound) (hn : D.NamesIn N b) :
    (D.arena.tree b).Named N := by
  have key : ∀ m, D.arena.Anc b m → (D.arena.tree m).Named N := by
    intro m
    refine hs.wf.induct_down (P := fun m => D.arena.Anc b m → (D.arena.tree m).Named N) ?_ m
    intro m ih ha
    rw [hs.wf.tree_eq]
    cases hk : (D.arena.data m).kind with
    | element tag attrs =>
      refine ⟨hn m tag attrs ha hk, hs.uniq m tag attrs hk, Html.namedL_iff.2 fun t ht => ?_⟩
      obtain ⟨c, hc, rfl⟩ := List.mem_map.1 ht
      exact ih c hc (.step ((hs.wf.mem_iff _ _).1 hc) ha)
    | _ => trivial
  exact key b .refl

/-- The rewriting of the page, with the children it leads to. -/
theorem Comparable.rewriting_page (content : Str → List Html)
    (h : Comparable old new ob nb)
    (hc : NoCollision hashNode (buildTree old ob) (diffable new) nb)
    (ho : OpaqueFixed hashNode old new ob nb)
    (hf : NoMoveBelowSelf hashNode old new ob nb ∨ NoInversion hashNode old new ob nb)
    (hN : PlainNames N) (hno : old.NamesIn N ob) (hnn : new.NamesIn N nb) {t : Html}
    (hsame : t.unq = (old.arena.tree ob).unq) :
    ∃ ps τ u, diff hashNode old new = .ok ps ∧
      (Dialect.library content).Neutral N (Store.init (old.arena.tree ob)) ps ∧
      Dialect.page.run (Store.init t) ps = some τ ∧ τ 0 = some u ∧ u.inner = new.toBodyHtml ∧
      ∃ attrs cs, u.unq = (Html.element "body".toList attrs cs).unq ∧ Html.pruneL cs = Html.pruneL new.bodyForest := by
  obtain ⟨ps, σ, e, e1, h2, h3, h4⟩ := h.rewriting hc ho hf parsed_new_sound
  have hneu := h2.neutral (h4 N hnn)
  obtain ⟨ps', σ', attrs, cs, _, e', e1', e2, e3, _⟩ := C62_rewriting_gives_the_new_body_partial
    (parsedContent fun _ => Document.new) h hc ho hf
  rw [e] at e'; cases e'
  rw [e1] at e1'; cases e1'
  have h0 : Store.Sim N (Store.init (old.arena.tree ob)) (Store.init t) := by
    constructor
    · intro k
      simp only [Store.init]
      split
      · simp [hsame]
      · rfl
    · intro k u e
      simp only [Store.init] at e
      split at e
      · cases e; exact hno.tree h.old.sound.arena
      · cases e
  obtain ⟨τ, f1, f2⟩ := h0.run hN _ hneu e1
  have hs := f2.same 0
  rw [e2] at hs
  cases e0 : τ 0 with
  | none => rw [e0] at hs; cases hs
  | some u =>
    rw [e0] at hs
    refine ⟨ps, τ, u, e, Dialect.library_neutral _ _ hneu, f1, e0, ?_, attrs, cs, Option.some.inj hs, e3⟩
    rw [← Html.inner_unq, Option.some.inj hs, Html.inner_unq]
    show Html.serL false cs = _
    rw [toBodyHtml_eq, ← Html.serL_pruneL, e3, Html.serL_pruneL]

/-- **C62**, partial, for the page: the patch list means the same to the library and to the page
(`Dialect.Neutral`, see C60), and read as rewriting of the tree of a page that shows the old body, it gives the
HTML of the new body. Missing: as for `C62_rewriting_gives_the_new_body_partial`, and attribute names that are not
told apart by the way they are written. -/
theorem C62_rewriting_of_the_page_partial (content : Str → List Html) (h : Comparable old new ob nb)
    (hc : NoCollision hashNode (buildTree old ob) (diffable new) nb)
    (ho : OpaqueFixed hashNode old new ob nb)
    (hf : NoMoveBelowSelf hashNode old new ob nb ∨ NoInversion hashNode old new ob nb)
    (hN : PlainNames N) (hno : old.NamesIn N ob) (hnn : new.NamesIn N nb) {t : Html}
    (hsame : t.unq = (old.arena.tree ob).unq) :
    ∃ ps τ u, diff hashNode old new = .ok ps ∧
      (Dialect.library content).Neutral N (Store.init (old.arena.tree ob)) ps ∧
      Dialect.page.run (Store.init t) ps = some τ ∧ τ 0 = some u ∧ u.inner = new.toBodyHtml := by
  obtain ⟨ps, τ, u, h1, h2, h3, h4, h5, _⟩ := h.rewriting_page content hc ho hf hN hno hnn hsame
  exact ⟨ps, τ, u, h1, h2, h3, h4, h5⟩

/-- **C62**, partial, for pages: the patches of `diff old new` apply to every page that shows the body of `old`,
and then it shows the body of `new`. Below the mount point the page may have any nodes that look the same. Missing:
as for `C62_rewriting_of_the_page_partial` and `C31_browser_agrees_partial`. -/
theorem C62_any_page_is_updated_partial (dom : WebDom) (h : Comparable old new ob nb)
    (hc : NoCollision hashNode (buildTree old ob) (diffable new) nb)
    (ho : OpaqueFixed hashNode old new ob nb)
    (hf : NoMoveBelowSelf hashNode old new ob nb ∨ NoInversion hashNode old new ob nb)
    (hN : PlainNames N) (hno : old.NamesIn N ob) (hnn : new.NamesIn N nb)
    (hk : new.AllIn dom.KeepsTag dom.KeepsName nb) {E : Arena NodeData} {eb : Nat} (hE : E.WF) (hl : E.Lower)
    (heb : eb < E.next) (hsame : (E.tree eb).unq = (old.arena.tree ob).unq) :
    ∃ ps E', diff hashNode old new = .ok ps ∧ dom.applyPatches eb E ps = .ok E' ∧
      (E'.tree eb).inner = new.toBodyHtml ∧ E'.WF ∧ E'.parent eb = E.parent eb ∧
      ∀ n, n < E.next → ¬ E.Anc eb n →
        E'.data n = E.data n ∧ E'.parent n = E.parent n ∧ E'.children n = E.children n := by
  obtain ⟨ps, τ, u, e, _, e1, e2, e3⟩ := C62_rewriting_of_the_page_partial (fun _ => []) h hc ho hf hN hno hnn hsame
  obtain ⟨E', f1, f2, f3, _, f4, f5⟩ := C47_patches_rewrite_the_page dom hE hl heb
    (fun P hP => C31_names_from_new dom h hc ho.agree hk e P hP) e1
  rw [e2] at f2
  cases f2
  exact ⟨ps, E', e, f1, e3, f3, f4, f5⟩

/-! ### Concrete cases -/

/-- The hypotheses on the documents hold for `ex1`, `ex2`. -/
example : Comparable (.ofForest ex1) (.ofForest ex2) 2 2 ∧
    OpaqueFixed Shape.node (.ofForest ex1) (.ofForest ex2) 2 2 ∧
    NoMoveBelowSelf Shape.node (.ofForest ex1) (.ofForest ex2) 2 2 ∧
    (Document.ofForest ex1).NamesIn bareName 2 ∧ (Document.ofForest ex2).NamesIn bareName 2 ∧
    (Document.ofForest ex2).AllIn WebDom.lenient.KeepsTag WebDom.lenient.KeepsName 2 := by
  have h1 := ofForest_valid ex1 (by decide +kernel)
  have h2 := ofForest_valid ex2 (by decide +kernel)
  exact ⟨comparable_ofForest (by decide +kernel) (by decide +kernel),
    opaqueFixed_ofForest (by decide +kernel) (by decide +kernel),
    noMoveBelowSelf_of_movesSafe (by decide +kernel),
    namesIn_of_bareB h1.wf (by decide +kernel) (by decide +kernel),
    namesIn_of_bareB h2.wf (by decide +kernel) (by decide +kernel),
    allIn_of_keptB h2.wf (by decide +kernel) (by decide +kernel)⟩

/-- Patches that build `ex1` in an empty body, from the end. -/
def build1 : List Patch :=
  [.insertText [0, 0] "tail".toList none,
   .insertElement [0, 0] "ul".toList [(⟨none, [], "class".toList⟩, "a".toList)]
    [.element "li".toList [] [.text "one".toList], .element "li".toList [] [.text "two".toList],
      .element "li".toList [(⟨none, [], "id".toList⟩, "x".toList)] [.comment "c".toList]] none]

/-- A copy of `ex1` with other nodes: its first node is the text at the end. -/
example : ∃ D : Document, D.arena.WF ∧ D.body = some 2 ∧
    D.arena.tree 2 = (Document.ofForest ex1).arena.tree 2 ∧ D.arena.children 2 = [4, 3] ∧
    (Document.ofForest ex1).arena.children 2 = [3, 10] := by
  have h0 := ofForest_valid [] (by decide +kernel)
  have hr : ∃ σ, (Dialect.library (parsedContent fun _ => Document.new)).run
      (Store.init ((Document.ofForest []).arena.tree 2)) build1 = some σ ∧
      σ 0 = some (.element "body".toList [] ex1) := ⟨_, rfl, rfl⟩
  obtain ⟨σ, hr, hr0⟩ := hr
  obtain ⟨D, e, d2, d0, _, _, d3, _⟩ := C46_patches_rewrite_the_tree (fun _ => Document.new) h0.wf
    (by decide +kernel) parsed_new_sound hr
  have key : (match applyPatches (fun _ => Document.new) (.ofForest []) build1 with
      | .ok D => decide (D.arena.children 2 = [4, 3])
      | .error _ => false) = true := by decide +kernel
  rw [e] at key
  refine ⟨D, d3, d2, ?_, of_decide_eq_true key, by decide +kernel⟩
  rw [hr0] at d0
  rw [← Option.some.inj d0]
  rfl

end Hotmeal
