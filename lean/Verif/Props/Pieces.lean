import Verif.Lemmas.Piece
import Verif.Props.Block
import Verif.Props.RoundTrip

set_option autoImplicit false
set_option linter.unusedSectionVars false

/-!
# C01 for pages of which some pieces have not changed
-/

namespace Hotmeal

/-- `x` of the old body and `y` of the new body have the same content (names and texts, attributes aside), their
ancestors are pairwise of the same name, and no node inside the one has the content of a node outside of the other,
not counting nodes of inner kinds. -/
structure KeptPiece (inner : HKind → Bool) (old new : Document) (ob nb x y : Nat) : Prop where
  trail : SameTrail old.arena new.arena ob nb x y
  same : Arena.Alike NodeData.SameContent old.arena new.arena x y
  apart : ∀ n m, old.arena.Anc ob n → new.arena.Anc nb m → inner (tdataOf (old.arena.data n)).kind = false →
    Arena.Alike NodeData.SameContent old.arena new.arena n m → (old.arena.Anc x n ↔ new.arena.Anc y m)

/-- Kinds of nodes can be ranked so that every node of the body ranks above its parent, but for nodes inside of
`kept` ones and for inner nodes whose parent is not inner. Below inner nodes there are inner nodes only. -/
def LayeredBut (inner : HKind → Bool) (rank : HKind → Nat) (D : Document) (b : Nat) (kept : Nat → Prop) : Prop :=
  ∀ n p, D.arena.parent n = some p → D.arena.Anc b p →
    let kn := (tdataOf (D.arena.data n)).kind
    let kp := (tdataOf (D.arena.data p)).kind
    (inner kp = true → inner kn = true ∧ rank kp < rank kn) ∧
    (inner kp = false → inner kn = true ∨ rank kp < rank kn ∨ ∃ x, kept x ∧ D.arena.Anc x n)

/-- Below inner nodes there are inner nodes only. -/
def InnerClosed (inner : HKind → Bool) (D : Document) (b : Nat) : Prop :=
  ∀ n p, D.arena.parent n = some p → D.arena.Anc b p → inner (tdataOf (D.arena.data p)).kind = true →
    inner (tdataOf (D.arena.data n)).kind = true

theorem LayeredBut.closed {inner : HKind → Bool} {rank : HKind → Nat} {D : Document} {b : Nat} {kept : Nat → Prop}
    (h : LayeredBut inner rank D b kept) : InnerClosed inner D b :=
  fun n p hnp hp hi => ((h n p hnp hp).1 hi).1

variable {H : Type} [DecidableEq H] {hashNode : HKind → Option Str → List H → H}
  {old new : Document} {ob nb : Nat}

theorem KeptPiece.piece (h : Comparable old new ob nb)
    (hc : NoCollision hashNode (buildTree old ob) (diffable new) nb) (ho : old.Clear ob) (hn : new.Clear nb)
    {g : Nat → Nat} (hb : Built old ob (buildTree old ob) g) {inner : HKind → Bool}
    (lo : InnerClosed inner old ob) (ln : InnerClosed inner new nb)
    {x y : Nat} (hk : KeptPiece inner old new ob nb x y) :
    ∃ a, a < (buildTree old ob).next ∧ g a = x ∧ Piece hashNode (buildTree old ob) (diffable new) 0 nb inner a y := by
  have hw := h.old.sound.arena.wf
  have hBw : (diffable new).WF := Built.diffable_wf h.new.sound.arena.wf
  obtain ⟨a, ha, rfl, ht⟩ := hk.trail.built hb hw
  have hsame := fun a b h1 h2 e => hb.same_of_shape (new := new) (nb := nb) h.old.body hBw
    (TextEdit.no_document h.old) (TextEdit.no_document h.new) hw a b h1 h2 e
  have hs : (buildTree old ob).shape a = (diffable new).shape y :=
    alike_hash' (hashNode := Shape.node) hb.wf hBw 0 nb (hb.shape_of_same h.old.body a y ha hk.same)
  refine ⟨a, ha, rfl, ?_, ?_, hc, ?_, ?_, ht.down, hs, ?_⟩
  · intro n hn
    by_cases e : n = 0
    · rw [e, hb.rdata]; rfl
    · rw [hb.data _ (hb.lt_of_anc hn) e]
      exact ho.tdata (hb.ganc hw hn)
  · exact fun n hn' => hn.tdata (anc_of_diffable hn')
  · intro n p hnp hp hi
    have hl := hb.wf.lt_of_parent _ _ hnp
    rw [(hb.look h.old.body hl.2).1] at hi
    rw [(hb.look h.old.body hl.1).1]
    exact lo _ _ (hb.gparent hw hnp) (hb.ganc hw hp) hi
  · intro n p hnp hp hi
    exact ln n p hnp (anc_of_diffable hp) hi
  · intro n m h1 h2 hi e
    rw [(hb.look h.old.body (hb.lt_of_anc h1)).1] at hi
    rw [← hb.anc_iff hw (hb.reach a ha) h1, hk.apart (g n) m (hb.ganc hw h1) (anc_of_diffable h2) hi
      (hsame n m h1 h2 e)]
    exact ⟨diffable_anc, anc_of_diffable⟩

/-- If all nodes outside of unchanged pieces are layered, no ancestor order is turned around. -/
theorem noInversion_of_pieces (h : Comparable old new ob nb)
    (hc : NoCollision hashNode (buildTree old ob) (diffable new) nb) (ho : old.Clear ob) (hn : new.Clear nb)
    {inner : HKind → Bool} {rank : HKind → Nat}
    (lo : LayeredBut inner rank old ob fun x => ∃ y, KeptPiece inner old new ob nb x y)
    (ln : LayeredBut inner rank new nb fun y => ∃ x, KeptPiece inner old new ob nb x y) :
    NoInversion hashNode old new ob nb := by
  obtain ⟨g, hb⟩ := buildTree_spec old h.old.sound.arena.leafy ob
  have hw := h.old.sound.arena.wf
  have hBw : (diffable new).WF := Built.diffable_wf h.new.sound.arena.wf
  have hp := h.plan hashNode hc (opaqueFixed_of_clear (hashNode := hashNode) h ho hn).agree hb
  refine ranked_of_pieces (hashNode := hashNode) (ra := 0) hb.wf hBw (inner := inner) (rank := rank)
    (P := fun a y => a < (buildTree old ob).next ∧ KeptPiece inner old new ob nb (g a) y) ?_
    ⟨hp.getB, hp.getA, hp.nd, fun a b hab => ⟨hp.kind a b hab, hp.areach a (hp.lt a b hab).1, (hp.lt a b hab).2⟩⟩
    (fun _ hp => hp) (fun n p hnp => hb.reach p (hb.wf.lt_of_parent _ _ hnp).2) ?_ ?_
  · rintro a y ⟨ha, hk⟩
    obtain ⟨a', ha', e, hpc⟩ := hk.piece h hc ho hn hb lo.closed ln.closed
    rw [hb.ginj hw (hb.reach a' ha') a (hb.reach a ha) e] at hpc
    exact hpc
  · intro n p hnp hpa
    have hl := hb.wf.lt_of_parent _ _ hnp
    rw [(hb.look h.old.body hl.2).1, (hb.look h.old.body hl.1).1]
    obtain ⟨h1, h2⟩ := lo _ _ (hb.gparent hw hnp) (hb.ganc hw hpa)
    refine ⟨h1, fun hi => ?_⟩
    rcases h2 hi with h3 | h3 | ⟨x, ⟨y, hk⟩, hx⟩
    · exact .inl h3
    · exact .inr (.inl h3)
    · obtain ⟨a, ha, rfl, _⟩ := hk.piece h hc ho hn hb lo.closed ln.closed
      exact .inr (.inr ⟨a, y, ⟨ha, hk⟩, (hb.anc_iff hw (hb.reach a ha) (hb.reach n hl.1)).1 hx⟩)
  · intro n p hnp hpa
    obtain ⟨h1, h2⟩ := ln n p hnp (anc_of_diffable hpa)
    refine ⟨h1, fun hi => ?_⟩
    rcases h2 hi with h3 | h3 | ⟨y, ⟨x, hk⟩, hy⟩
    · exact .inl h3
    · exact .inr (.inl h3)
    · obtain ⟨a, ha, rfl, _⟩ := hk.piece h hc ho hn hb lo.closed ln.closed
      exact .inr (.inr ⟨a, y, ⟨ha, hk⟩, diffable_anc hy⟩)

/-- **C01** for pages of which the nodes outside of unchanged pieces are layered, however deep elements of the same
name are nested inside of the pieces, and wherever the pieces are now below parents of the same names. Missing:
changes inside of pieces that nest elements of the same name. -/
theorem C01_round_trip_pieces_partial (parse : Str → Document) (h : Comparable old new ob nb)
    (hc : NoCollision hashNode (buildTree old ob) (diffable new) nb) (ho : old.Clear ob) (hn : new.Clear nb)
    {inner : HKind → Bool} {rank : HKind → Nat}
    (lo : LayeredBut inner rank old ob fun x => ∃ y, KeptPiece inner old new ob nb x y)
    (ln : LayeredBut inner rank new nb fun y => ∃ x, KeptPiece inner old new ob nb x y) :
    ∃ ps old', diff hashNode old new = .ok ps ∧ applyPatches parse old ps = .ok old' ∧
      old'.toBodyHtml = new.toBodyHtml ∧
      Html.pruneL old'.bodyForest = Html.pruneL new.bodyForest :=
  C01_round_trip_partial parse h hc (opaqueFixed_of_clear h ho hn)
    (.inr (noInversion_of_pieces h hc ho hn lo ln))

/-! ### The nodes of a piece -/

theorem KeptPiece.matched (h : Comparable old new ob nb)
    (hc : NoCollision hashNode (buildTree old ob) (diffable new) nb) (ho : old.Clear ob) (hn : new.Clear nb)
    {f : Nat → Nat} (hb : Built old ob (buildTree old ob) f) {inner : HKind → Bool}
    (lo : InnerClosed inner old ob) (ln : InnerClosed inner new nb)
    {x y n m : Nat} (hk : KeptPiece inner old new ob nb x y) (hp : Place old.arena new.arena x y n m)
    (hi : inner (tdataOf (old.arena.data n)).kind = false) :
    ∃ a, f a = n ∧ (a, m) ∈ (diffMatching (oldTree hashNode old ob) (newTree hashNode new nb)).pairs := by
  have hBw : (diffable new).WF := Built.diffable_wf h.new.sound.arena.wf
  obtain ⟨a, ha, rfl, hpc⟩ := hk.piece h hc ho hn hb lo ln
  have hcorr : ∃ c, c < (buildTree old ob).next ∧ f c = n ∧ Corr (buildTree old ob) (diffable new) a y c m := by
    clear hi
    induction hp with
    | root => exact ⟨a, ha, rfl, .root⟩
    | @child p q i u v _ hu hv ih =>
      obtain ⟨c, hc, rfl, hr⟩ := ih
      rw [hb.kids c hc, List.getElem?_map, Option.map_eq_some_iff] at hu
      obtain ⟨d, hd, rfl⟩ := hu
      refine ⟨d, (hb.wf.lt_of_parent _ _ ((hb.wf.mem_iff _ _).1 (List.mem_of_getElem? hd))).1, rfl, ?_⟩
      exact .child hr (hpc.clearA c (hb.reach c hc)) hd hv
  obtain ⟨c, hcl, rfl, hr⟩ := hcorr
  refine ⟨c, rfl, hpc.matched hb.wf hBw hr ?_⟩
  rw [(hb.look h.old.body hcl).1]; exact hi

/-- **C52** for the nodes of an unchanged piece: they are kept, however often their content occurs inside of the
piece. After the patches are applied, the very nodes of the old piece stand at the places of the nodes of the new
piece. Missing: inner nodes, for example repeated texts; pages with opaque elements; edit scripts with a Move of a
node below itself. -/
theorem C52_kept_pieces_partial (parse : Str → Document) (h : Comparable old new ob nb)
    (hc : NoCollision hashNode (buildTree old ob) (diffable new) nb) (ho : old.Clear ob) (hn : new.Clear nb)
    (hf : NoMoveBelowSelf hashNode old new ob nb ∨ NoInversion hashNode old new ob nb) {inner : HKind → Bool}
    (lo : InnerClosed inner old ob) (ln : InnerClosed inner new nb) :
    ∃ ps old', diff hashNode old new = .ok ps ∧ applyPatches parse old ps = .ok old' ∧
      old'.body = some ob ∧ ∀ x y, KeptPiece inner old new ob nb x y → ∀ n m, Place old.arena new.arena x y n m →
        inner (tdataOf (old.arena.data n)).kind = false →
        Place new.arena old'.arena nb ob m n ∧
        (m ≠ nb → (old'.arena.data n).kind = (new.arena.data m).kind) := by
  obtain ⟨f, hd, hbt⟩ := h.docRel_old
  obtain ⟨S0, ps, w, e, ht, hfr, hk, hu⟩ := h.matched_run (lawful_native parse _) hc ho hn hf hd hbt
  refine ⟨ps, _, e, h.applyPatches_eq parse ps ht.apply,
    hfr.body_eq h.old.sound.arena.wf h.old.body hk, fun x y hxy n m hp hi => ?_⟩
  obtain ⟨a, rfl, hm⟩ := hxy.matched h hc ho hn hbt lo ln hp hi
  exact hu a m hm

/-- **C52** for the nodes of an unchanged piece, in the browser: the DOM nodes of the piece stand at the places of
its nodes in the new document. Missing: as above and as for `C31_browser_agrees_partial`. -/
theorem C52_browser_keeps_pieces_partial {N : QualName → Prop} (dom : WebDom)
    (h : Comparable old new ob nb)
    (hc : NoCollision hashNode (buildTree old ob) (diffable new) nb) (ho : old.Clear ob) (hn : new.Clear nb)
    (hf : NoMoveBelowSelf hashNode old new ob nb ∨ NoInversion hashNode old new ob nb) {inner : HKind → Bool}
    (lo : InnerClosed inner old ob) (ln : InnerClosed inner new nb)
    (hN : PlainNames N) (hno : old.NamesIn N ob) (hnn : new.NamesIn N nb)
    {E : Arena NodeData} {eb : Nat} (hE : E.WF) (heb : eb < E.next) (hEe : E.ElemBelow eb)
    (hEl : E.Lower) (hk : new.AllIn dom.KeepsTag dom.KeepsName nb)
    (hsame : (E.tree eb).unq = (old.arena.tree ob).unq) :
    ∃ ps E', diff hashNode old new = .ok ps ∧ dom.applyPatches eb E ps = .ok E' ∧
      ∀ x y, KeptPiece inner old new ob nb x y → ∀ n m, Place old.arena new.arena x y n m →
        inner (tdataOf (old.arena.data n)).kind = false →
        ∀ e, Place old.arena E ob eb n e → Place new.arena E' nb eb m e := by
  obtain ⟨f, hd, hbt⟩ := h.docRel_old
  obtain ⟨ps, E', e1, e2, hu⟩ := h.matched_browser dom hc ho hn hf hN hno hnn hE heb hEe hEl hk hsame hd hbt
  refine ⟨ps, E', e1, e2, fun x y hxy n m hp hi e he => ?_⟩
  obtain ⟨a, rfl, hm⟩ := hxy.matched h hc ho hn hbt lo ln hp hi
  exact hu a m hm e he

/-! ### Concrete cases -/

/-- Checker for `LayeredBut`. -/
def layeredButB (inner : HKind → Bool) (rank : HKind → Nat) (D : Document) (b : Nat) (kept : List Nat) : Bool :=
  (D.arena.descendants b).all fun p => (D.arena.children p).all fun n =>
    let kn := (tdataOf (D.arena.data n)).kind
    let kp := (tdataOf (D.arena.data p)).kind
    if inner kp then inner kn && decide (rank kp < rank kn)
    else inner kn || decide (rank kp < rank kn) || kept.any fun x => decide (n ∈ D.arena.descendants x)

theorem layeredBut_of {inner : HKind → Bool} {rank : HKind → Nat} {D : Document} {b : Nat} {kept : List Nat}
    {K : Nat → Prop} (hD : D.arena.WF) (hK : ∀ x ∈ kept, K x)
    (h : layeredButB inner rank D b kept = true) : LayeredBut inner rank D b K := by
  intro n p hnp hp
  simp only [layeredButB, List.all_eq_true] at h
  have h1 := h p ((hD.mem_descendants _ _).2 hp) n ((hD.mem_iff _ _).2 hnp)
  refine ⟨fun hi => ?_, fun hi => ?_⟩
  · rw [if_pos hi, Bool.and_eq_true, decide_eq_true_eq] at h1
    exact h1
  · rw [if_neg (by rw [hi]; exact Bool.false_ne_true), Bool.or_eq_true, Bool.or_eq_true, decide_eq_true_eq,
      List.any_eq_true] at h1
    rcases h1 with (h1 | h1) | ⟨x, h1, h2⟩
    · exact .inl h1
    · exact .inr (.inl h1)
    · exact .inr (.inr ⟨x, hK x h1, (hD.mem_descendants _ _).1 (of_decide_eq_true h2)⟩)

/-- Checker for `KeptPiece` without the trail. -/
def keptPieceB (inner : HKind → Bool) (D E : Document) (ob nb x y : Nat) : Bool :=
  alikeB sameContentB D.arena E.arena 9 x y &&
  (D.arena.descendants ob).all fun n => inner (tdataOf (D.arena.data n)).kind ||
    (E.arena.descendants nb).all fun m =>
    !decide ((diffable D).shape n = (diffable E).shape m) ||
    (decide (n ∈ D.arena.descendants x) == decide (m ∈ E.arena.descendants y))

theorem keptPiece_of {inner : HKind → Bool} {D E : Document} {ob nb x y : Nat} (hD : D.arena.WF) (hE : E.arena.WF)
    (ht : SameTrail D.arena E.arena ob nb x y)
    (h : keptPieceB inner D E ob nb x y = true) : KeptPiece inner D E ob nb x y := by
  simp only [keptPieceB, Bool.and_eq_true, List.all_eq_true, Bool.or_eq_true, decide_eq_true_eq,
    Bool.not_eq_true', decide_eq_false_iff_not, beq_iff_eq] at h
  refine ⟨ht, alike_of_alikeB sameContentB_spec h.1, fun n m hn hm hi hs => ?_⟩
  rcases h.2 n ((hD.mem_descendants _ _).2 hn) with h1 | h1
  · rw [hi] at h1; cases h1
  · rcases h1 m ((hE.mem_descendants _ _).2 hm) with h2 | h2
    · exact absurd (sameContent_shape (Built.diffable_wf hD) (Built.diffable_wf hE) hs) h2
    · rw [decide_eq_decide, hD.mem_descendants, hE.mem_descendants] at h2
      exact h2

/-- Two cards of nested `div` elements and a paragraph, with line breaks. -/
def cards1 : List Html :=
  [ex "main" [] [.text "\n".toList,
    ex "div" [("id", "a")] [ex "div" [] [ex "div" [] [.text "one".toList], .text "\n".toList,
      ex "div" [] [.text "one".toList]]], .text "\n".toList,
    ex "p" [] [.text "old".toList], .text "\n".toList,
    ex "div" [] [ex "div" [] [ex "div" [] [.text "two".toList]]], .text "\n".toList]]
/-- A paragraph is new, another has changed, the cards have changed places and the first one its class. -/
def cards2 : List Html :=
  [ex "main" [] [.text "\n".toList,
    ex "p" [] [.text "intro".toList], .text "\n".toList,
    ex "div" [] [ex "div" [] [ex "div" [] [.text "two".toList]]], .text "\n".toList,
    ex "div" [("id", "a"), ("class", "last")] [ex "div" [] [ex "div" [] [.text "one".toList], .text "\n".toList,
      ex "div" [] [.text "one".toList]]], .text "\n".toList,
    ex "p" [] [.text "new ".toList, ex "em" [] [.text "text".toList]], .text "\n".toList]]

/-- Texts are inner nodes. -/
def textKind : HKind → Bool
  | .text => true
  | _ => false

/-- Ranks of the nodes that are not in the cards. -/
def cardRank : HKind → Nat
  | .element tag _ => if tag = "main".toList then 1 else if tag = "p".toList then 2 else if tag = "em".toList then 3 else 0
  | _ => 0

/-- The hypotheses of `C01_round_trip_pieces_partial` and `C52_kept_pieces_partial` hold for these pages. -/
example : Comparable (.ofForest cards1) (.ofForest cards2) 2 2 ∧
    NoCollision Shape.node (buildTree (.ofForest cards1) 2) (diffable (.ofForest cards2)) 2 ∧
    (Document.ofForest cards1).Clear 2 ∧ (Document.ofForest cards2).Clear 2 ∧
    KeptPiece textKind (.ofForest cards1) (.ofForest cards2) 2 2 5 13 ∧
    KeptPiece textKind (.ofForest cards1) (.ofForest cards2) 2 2 16 8 ∧
    LayeredBut textKind cardRank (.ofForest cards1) 2
      (fun x => ∃ y, KeptPiece textKind (.ofForest cards1) (.ofForest cards2) 2 2 x y) ∧
    LayeredBut textKind cardRank (.ofForest cards2) 2
      (fun y => ∃ x, KeptPiece textKind (.ofForest cards1) (.ofForest cards2) 2 2 x y) := by
  have h1 := ofForest_valid cards1 (by decide +kernel)
  have h2 := ofForest_valid cards2 (by decide +kernel)
  have k1 : KeptPiece textKind (.ofForest cards1) (.ofForest cards2) 2 2 5 13 := by
    refine keptPiece_of h1.wf h2.wf (.child (p := 3) (q := 3) (.child .root ?_ ?_ ?_) ?_ ?_ ?_) (by decide +kernel)
    · decide +kernel
    · decide +kernel
    · exact sameTypeB_spec _ _ (by decide +kernel)
    · decide +kernel
    · decide +kernel
    · exact sameTypeB_spec _ _ (by decide +kernel)
  have k2 : KeptPiece textKind (.ofForest cards1) (.ofForest cards2) 2 2 16 8 := by
    refine keptPiece_of h1.wf h2.wf (.child (p := 3) (q := 3) (.child .root ?_ ?_ ?_) ?_ ?_ ?_) (by decide +kernel)
    · decide +kernel
    · decide +kernel
    · exact sameTypeB_spec _ _ (by decide +kernel)
    · decide +kernel
    · decide +kernel
    · exact sameTypeB_spec _ _ (by decide +kernel)
  refine ⟨comparable_ofForest (by decide +kernel) (by decide +kernel), noCollision_shape _ _ _,
    clear_of h1.wf (by decide +kernel), clear_of h2.wf (by decide +kernel), k1, k2,
    layeredBut_of (kept := [5, 16]) h1.wf ?_ (by decide +kernel),
    layeredBut_of (kept := [13, 8]) h2.wf ?_ (by decide +kernel)⟩
  · intro x hx
    simp only [List.mem_cons, List.not_mem_nil, or_false] at hx
    rcases hx with rfl | rfl
    · exact ⟨_, k1⟩
    · exact ⟨_, k2⟩
  · intro x hx
    simp only [List.mem_cons, List.not_mem_nil, or_false] at hx
    rcases hx with rfl | rfl
    · exact ⟨_, k1⟩
    · exact ⟨_, k2⟩

end Hotmeal
