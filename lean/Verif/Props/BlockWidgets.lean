import Verif.Props.Block

set_option autoImplicit false
set_option linter.unusedSectionVars false

/-!
# C58 for pages with opaque elements
-/

namespace Hotmeal

variable {H : Type} [DecidableEq H] {hashNode : HKind → Option Str → List H → H}
  {old new : Document} {ob nb : Nat} {N : QualName → Prop}

theorem NodeData.SameContent.sameTag {d e : NodeData} (h : d.SameContent e) : d.SameTag e := by
  obtain ⟨k, ns⟩ := d
  obtain ⟨k', ns'⟩ := e
  cases k <;> cases k' <;> simp_all [NodeData.SameContent, NodeData.SameTag]

/-- No report is about a part of an unchanged block. -/
theorem SameBlock.no_report (h : Comparable old new ob nb)
    (hc : NoCollision hashNode (buildTree old ob) (diffable new) nb)
    (hob : old.ClearBody ob) (hnb : new.ClearBody nb) (hap : Apart old new ob nb)
    {k x y : Nat} (hs : SameBlock old new ob nb k x y) (hw : OwnWidgets old new ob nb x y)
    {ps : List Patch} (e : diff hashNode old new = .ok ps) :
    ∀ P ∈ ps, P.isReport = true → ∀ q ∈ P.paths, ¬ [0, k] <+: q := by
  have hwo := h.old.sound.arena.wf
  have hBw : (diffable new).WF := Built.diffable_wf h.new.sound.arena.wf
  obtain ⟨g, qs, l, path, hb, rfl, hq, _, hl, hlead⟩ := C37_one_report_each_partial
    ⟨h.old.sound, h.new.sound, h.old.body, h.new.body⟩ hc e
  intro P hP hr q hpq hpre
  rcases List.mem_append.1 hP with hP | hP
  · rw [hq P hP] at hr; cases hr
  · obtain ⟨⟨a, b⟩, hab, rfl⟩ := List.mem_map.1 hP
    obtain ⟨hm, _, hne⟩ := (hl a b).1 hab
    have hpa := (hlead a b hab).navigate
    simp only [Patch.paths, List.mem_singleton] at hpq
    subst hpq
    have hx : old.arena.Anc x (g a) := by
      have hsp : Spared old.arena ob k x old.arena (Arena.upd (fun _ => none) 0 (some ob)) :=
        ⟨hwo, Nat.le_refl _, by simp, hs.kidOld, fun _ _ => rfl, fun _ _ => rfl⟩
      exact hsp.nav hwo hpa hpre
    have hp := h.plan hashNode hc (hap.agree h hob hc) hb
    obtain ⟨a0, rfl, hbl⟩ := hs.block_apart h hc hob hnb hap hb hw
    have ha0 : (buildTree old ob).Anc 0 a0 := .step (hbl.parA hb.wf hBw) .refl
    have ha := hp.areach a (hp.lt a b hm).1
    obtain ⟨b', hb'⟩ := hbl.total hb.wf ((hb.anc_iff hwo ha0 ha).1 hx) ha0 (hp.clear a b hm).1
    have := hp.fn1 hm (hbl.matched hb.wf hBw hb')
    subst this
    apply hne
    refine (hb.same_of_shape (new := new) (nb := nb) h.old.body hBw (TextEdit.no_document h.old)
      (TextEdit.no_document h.new) hwo a b ha (hp.lt a b hm).2 ?_).mono fun _ _ e => e.sameTag
    exact alike_hash' (hashNode := Shape.node) hb.wf hBw 0 nb
      ((hb'.alike hbl.same).mono fun _ _ e => ⟨by rw [e], by rw [e]⟩)

/-- **C58**, partial, for pages with opaque elements. As `C58_unchanged_block_is_not_touched_partial`; the block
may contain opaque elements, and so may the rest of the page. The patches end with the reports that the content
of an opaque element has changed: none of these is about the block either.

Missing from the full statement: as above; elements that have the same name and are opaque at one place and
ordinary at another one; blocks with an opaque element that has the name of an element elsewhere. -/
theorem C58_unchanged_block_beside_widgets_partial (parse : Str → Document) (h : Comparable old new ob nb)
    (hc : NoCollision hashNode (buildTree old ob) (diffable new) nb)
    (hob : old.ClearBody ob) (hnb : new.ClearBody nb) (hap : Apart old new ob nb)
    (hf : NoMoveBelowSelf hashNode old new ob nb ∨ NoInversion hashNode old new ob nb) :
    ∃ ps rs, diff hashNode old new = .ok (ps ++ rs) ∧ (∀ P ∈ rs, P.isReport = true) ∧
      ∀ k x y, SameBlock old new ob nb k x y → OwnWidgets old new ob nb x y →
      (∀ P ∈ ps ++ rs, ∀ q ∈ P.paths, ¬ [0, k] <+: q) ∧
      ∀ qs, qs <+: ps → ∃ D, applyPatches parse old qs = .ok D ∧ (D.arena.children ob)[k]? = some x ∧
        ∀ n, old.arena.Anc x n → D.arena.children n = old.arena.children n ∧
          D.arena.data n = old.arena.data n := by
  obtain ⟨f, hd, hbt⟩ := h.docRel_old
  obtain ⟨S0, ps, e, hall⟩ := h.block_run_at (lawful_native parse _) hc hob hnb hap hf hd hbt
  have hr := reports_isReport (hashNode := hashNode) (old := old) (new := new) (ob := ob) (nb := nb) S0
  refine ⟨ps, _, e, hr, fun k x y hs hw => ?_⟩
  obtain ⟨a, rfl, _, h1, h2⟩ := hall k x y hs hw
  refine ⟨fun P hP => ?_, fun qs hqs => ?_⟩
  · rcases List.mem_append.1 hP with hP' | hP'
    · exact h1 P hP'
    · exact hs.no_report h hc hob hnb hap hw e P hP (hr P hP')
  · obtain ⟨ops, w, _, ht, hsp⟩ := h2 qs hqs
    exact ⟨_, h.applyPatches_eq parse qs ht.apply, hsp.kid, fun n hn => ⟨hsp.children n hn, hsp.data n hn⟩⟩

/-- **C58**, partial, in the browser, for pages with opaque elements. The page shows the old document, and
scripts have filled its opaque elements with whatever they like. After each patch, up to the final reports, the
DOM nodes of an unchanged block are where they were, with the same children and the same content; what the
scripts have put into opaque elements of the block is included. Missing: as above and as for
`C31_browser_agrees_partial`. -/
theorem C58_browser_leaves_block_beside_widgets_partial (dom : WebDom) (h : Comparable old new ob nb)
    (hc : NoCollision hashNode (buildTree old ob) (diffable new) nb)
    (hob : old.ClearBody ob) (hnb : new.ClearBody nb) (hap : Apart old new ob nb)
    (hf : NoMoveBelowSelf hashNode old new ob nb ∨ NoInversion hashNode old new ob nb)
    (hN : PlainNames N) (hno : old.NamesIn N ob) (hnn : new.NamesIn N nb)
    (hk : new.AllIn dom.KeepsTag dom.KeepsName nb) {E : Arena NodeData} {eb : Nat} (hlow : E.Lower)
    (hst : Staged N old ob E eb) :
    ∃ ps rs, diff hashNode old new = .ok (ps ++ rs) ∧ (∀ P ∈ rs, P.isReport = true) ∧
      ∀ k x y, SameBlock old new ob nb k x y → OwnWidgets old new ob nb x y →
      ∃ u, (E.children eb)[k]? = some u ∧
      ∀ qs, qs <+: ps → ∃ E', dom.applyPatches eb E qs = .ok E' ∧ (E'.children eb)[k]? = some u ∧
        ∀ n, E.Anc u n → E'.children n = E.children n ∧ (E'.data n).kind.Looks (E.data n).kind := by
  obtain ⟨g0, hb⟩ := buildTree_spec old h.old.sound.arena.leafy ob
  have hso := h.old.sound
  have hwo := hso.arena.wf
  have hwB := Built.diffable_wf h.new.sound.arena.wf
  have ho := hap.agree h hob hc
  obtain ⟨he, hcl⟩ := hst.virtual_elem hso hno
  have hd := hb.docRel_of_mirror hso.arena.leafy (hst.mirror hso hno (TextEdit.no_document h.old))
    (fun b e => if_neg (by rw [e]; simp)) hob he hcl
  have hA0 := hst.agree hso hno
  obtain ⟨S0, ps, e, hall⟩ := h.block_run_at (lawful_swap (fun _ => Document.new) eb) hc hob hnb hap hf hd hb
  have hnames := h.script_names hc ho hnn
  have hkeep := C31_names_from_new dom h hc ho hk e
  refine ⟨ps, _, e, reports_isReport S0, fun k x y hs hw => ?_⟩
  obtain ⟨a, rfl, hpa, _, h2⟩ := hall k x y hs hw
  -- the block on the page
  obtain ⟨_, w0, _, ht0, hsp0⟩ := h2 [] (List.nil_prefix)
  have hku : (E.children eb)[k]? = some (Staged.where_ old ob E eb (g0 a)) := by
    cases ht0
    exact hsp0.kid
  have heu : E.Anc eb (Staged.where_ old ob E eb (g0 a)) :=
    .step ((hst.wf.mem_iff _ _).1 (List.mem_of_getElem? hku)) .refl
  refine ⟨_, hku, fun qs hqs => ?_⟩
  obtain ⟨ops, w, hsub, ht, hsp⟩ := h2 qs hqs
  obtain ⟨φ, L, E1, t1, e1, hA1, hx⟩ := ht.browserSwap hwB hN (fun op hop => hnames op (hsub op hop)) hA0
  refine ⟨E1, ?_, ?_, fun n hn => ?_⟩
  · rw [WebDom.applyPatches_eq hlow fun P hP => hkeep P (List.mem_append_left _ (hqs.subset hP))]
    simp only [Wasm.applyPatches, e1, bind, Except.bind]
  · have h1 := hA1.kids eb hA1.rootL
    rw [hA1.rootE] at h1
    rw [h1, List.getElem?_map, hsp.kid]
    exact congrArg some (hx _ heu).2
  · have hLn := heu.trans hn
    have hvn : (Staged.virtual N old ob E eb).Anc (Staged.where_ old ob E eb (g0 a)) n := Staged.virtual_anc.2 hn
    obtain ⟨x1, x2⟩ := hx n hLn
    constructor
    · have h1 := hA1.kids n x1
      rw [hsp.children n hvn, x2] at h1
      rw [id] at h1
      rw [h1]
      show (E.children n).map φ = E.children n
      conv => rhs; rw [← List.map_id (E.children n)]
      apply List.map_congr_left
      intro c hcn
      exact (hx c (.step ((hst.wf.mem_iff _ _).1 hcn) hLn)).2
    · have h1 := hA1.data n x1
      unfold DataSim at h1
      rw [hsp.data n hvn, x2] at h1
      have h2 := hst.virtual_sim hso hno hLn
      unfold DataSim at h2
      exact h1.looks.trans h2.looks.symm

/-! ### Concrete cases -/

/-- Checker for `OwnWidgets`. -/
def ownWidgetsB (D E : Document) (ob nb x y : Nat) : Bool :=
  (D.arena.descendants ob).all fun n => (E.arena.descendants nb).all fun m =>
    !sameTypeB (D.arena.data n) (E.arena.data m) || !(D.arena.data n).isOpaque ||
    (decide (n ∈ D.arena.descendants x) == decide (m ∈ E.arena.descendants y))

theorem ownWidgetsB_spec {D E : Document} {ob nb x y : Nat} (hD : D.arena.WF) (hE : E.arena.WF)
    (h : ownWidgetsB D E ob nb x y = true) : OwnWidgets D E ob nb x y := by
  simp only [ownWidgetsB, List.all_eq_true, Bool.or_eq_true, Bool.not_eq_true', beq_iff_eq] at h
  intro n m hn hm hs ho
  rcases h n ((hD.mem_descendants _ _).2 hn) m ((hE.mem_descendants _ _).2 hm) with (h | h) | h
  · rw [sameTypeB_of hs] at h; cases h
  · rw [ho] at h; cases h
  · rw [← hD.mem_descendants, ← hE.mem_descendants]
    exact decide_eq_decide.1 h

/-- A section with a map that a script draws, a text, and a chart. -/
def site1 : List Html :=
  [ex "section" [] [ex "h2" [] [.text "Map".toList], ex "my-map" [("data-hotmeal-opaque", "map")] []],
    ex "p" [] [.text "Open".toList], ex "my-chart" [("data-hotmeal-opaque", "c")] [.text "1".toList]]
/-- The same section, another chart, and another text. -/
def site2 : List Html :=
  [ex "section" [] [ex "h2" [] [.text "Map".toList], ex "my-map" [("data-hotmeal-opaque", "map")] []],
    ex "my-chart" [("data-hotmeal-opaque", "c")] [.text "2".toList], ex "p" [] [.text "Closed".toList]]
/-- What is on the screen: the first version with what scripts have drawn. -/
def sitePage : List Html :=
  [ex "section" [] [ex "h2" [] [.text "Map".toList],
      ex "my-map" [("data-hotmeal-opaque", "map")] [ex "canvas" [] []]],
    ex "p" [] [.text "Open".toList], ex "my-chart" [("data-hotmeal-opaque", "c")] [ex "svg" [] []]]

/-- The hypotheses of the two theorems hold for these pages and the section, and the patches have a report. -/
example : Comparable (.ofForest site1) (.ofForest site2) 2 2 ∧
    NoCollision Shape.node (buildTree (.ofForest site1) 2) (diffable (.ofForest site2)) 2 ∧
    (Document.ofForest site1).ClearBody 2 ∧ (Document.ofForest site2).ClearBody 2 ∧
    Apart (.ofForest site1) (.ofForest site2) 2 2 ∧
    NoMoveBelowSelf Shape.node (.ofForest site1) (.ofForest site2) 2 2 ∧
    SameBlock (.ofForest site1) (.ofForest site2) 2 2 0 3 3 ∧
    OwnWidgets (.ofForest site1) (.ofForest site2) 2 2 3 3 ∧
    PlainNames bareName ∧ (Document.ofForest site1).NamesIn bareName 2 ∧
    (Document.ofForest site2).NamesIn bareName 2 ∧
    (Document.ofForest site2).AllIn WebDom.lenient.KeepsTag WebDom.lenient.KeepsName 2 ∧
    (Document.ofForest sitePage).arena.Lower ∧
    Staged bareName (.ofForest site1) 2 (Document.ofForest sitePage).arena 2 ∧
    (match diff Shape.node (.ofForest site1) (.ofForest site2) with
      | .ok ps => decide (3 ≤ ps.length) && ps.any Patch.isReport | .error _ => false) = true := by
  have h1 := ofForest_valid site1 (by decide +kernel)
  have h2 := ofForest_valid site2 (by decide +kernel)
  have h3 := ofForest_valid sitePage (by decide +kernel)
  exact ⟨comparable_ofForest_tidy (o := true) (by decide +kernel) (by decide +kernel), noCollision_shape _ _ _,
    by decide +kernel, by decide +kernel, apart_of h1.wf h2.wf (by decide +kernel),
    noMoveBelowSelf_of_movesSafe (by decide +kernel), sameBlockB_spec h1.wf h2.wf (by decide +kernel),
    ownWidgetsB_spec h1.wf h2.wf (by decide +kernel), plainNames_bare,
    namesIn_of_bareB h1.wf (by decide +kernel) (by decide +kernel),
    namesIn_of_bareB h2.wf (by decide +kernel) (by decide +kernel),
    allIn_of_keptB h2.wf (by decide +kernel) (by decide +kernel), lower_ofForest (by decide +kernel),
    staged_of (comparable_ofForest_tidy (o := true) (by decide +kernel) (by decide +kernel))
      (namesIn_of_bareB h3.wf (by decide +kernel) (by decide +kernel)) (by decide +kernel),
    by decide +kernel⟩

/-- Two sections, the first one with an opaque `div`. -/
def twins1 : List Html :=
  [ex "section" [] [opaqueDiv "map" [.text "1".toList]], ex "section" [] [ex "p" [] []]]
/-- The first section is the same; the second one has got an opaque `div` too. -/
def twins2 : List Html :=
  [ex "section" [] [opaqueDiv "map" [.text "1".toList]], ex "section" [] [opaqueDiv "chart" [.text "2".toList]]]
/-- The page with what a script has drawn. -/
def twinsPage : List Html :=
  [ex "section" [] [opaqueDiv "map" [.text "MAP".toList]], ex "section" [] [ex "p" [] []]]

/-- **C58** is violated when an opaque element of the block has the name of an opaque element elsewhere. All
other hypotheses hold: the first section is the same in both pages and none of its parts occurs elsewhere. The
patches take the `div` out of the first section and put it into the second one. The map that the script has
drawn is now inside the chart, and there is a fresh map. -/
theorem C58_violated_by_widgets :
    Comparable (.ofForest twins1) (.ofForest twins2) 2 2 ∧
    NoCollision Shape.node (buildTree (.ofForest twins1) 2) (diffable (.ofForest twins2)) 2 ∧
    (Document.ofForest twins1).ClearBody 2 ∧ (Document.ofForest twins2).ClearBody 2 ∧
    Apart (.ofForest twins1) (.ofForest twins2) 2 2 ∧
    NoMoveBelowSelf Shape.node (.ofForest twins1) (.ofForest twins2) 2 2 ∧
    SameBlock (.ofForest twins1) (.ofForest twins2) 2 2 0 3 3 ∧
    Staged bareName (.ofForest twins1) 2 (Document.ofForest twinsPage).arena 2 ∧
    (match diff Shape.node (.ofForest twins1) (.ofForest twins2) with
      | .ok ps => (ps.any fun P => P.paths.any fun q => [0, 0].isPrefixOf q) &&
        match WebDom.lenient.applyPatches 2 (Document.ofForest twinsPage).arena
            (ps.filter fun P => !P.isReport) with
        | .ok E => decide ((E.tree 2).inner =
          ("<section><div data-hotmeal-opaque=\"map\">1</div></section>" ++
            "<section><div data-hotmeal-opaque=\"chart\">MAP</div></section>").toList)
        | .error _ => false
      | .error _ => false) = true := by
  have h1 := ofForest_valid twins1 (by decide +kernel)
  have h2 := ofForest_valid twins2 (by decide +kernel)
  have h3 := ofForest_valid twinsPage (by decide +kernel)
  exact ⟨comparable_ofForest_tidy (o := true) (by decide +kernel) (by decide +kernel), noCollision_shape _ _ _,
    by decide +kernel, by decide +kernel, apart_of h1.wf h2.wf (by decide +kernel),
    noMoveBelowSelf_of_movesSafe (by decide +kernel), sameBlockB_spec h1.wf h2.wf (by decide +kernel),
    staged_of (comparable_ofForest_tidy (o := true) (by decide +kernel) (by decide +kernel))
      (namesIn_of_bareB h3.wf (by decide +kernel) (by decide +kernel)) (by decide +kernel),
    by decide +kernel⟩

end Hotmeal
