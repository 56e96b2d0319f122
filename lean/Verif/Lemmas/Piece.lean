import Verif.Lemmas.Block
import Verif.Lemmas.Loop

set_option autoImplicit false
set_option linter.unusedSectionVars false

/-!
# The matching of an unchanged piece of the document, wherever it is
-/

namespace Hotmeal

variable {H : Type} [DecidableEq H] {hashNode : HKind → Option Str → List H → H}
  {A B : Arena TData} {ra rb : Nat}

/-- Matching two subtrees matches all nodes at the same place to which the way is free. -/
theorem matchSubtrees_reach (hA : A.WF) (hB : B.WF) (hoB : ∀ b, B.Anc rb b → (B.data b).props.isOpaque = false)
    (a : Nat) : ∀ (b k : Nat) (M : Matching) (u v : Nat), Corr A B a b u v → B.Anc rb b →
    (A.descendants a).length ≤ k → M.Good (fun _ _ => True) →
    (∀ p ∈ M.pairs, ¬ (A.Anc a p.1 ∧ A.Anc p.1 u) ∧ ¬ (B.Anc b p.2 ∧ B.Anc p.2 v)) →
    (u, v) ∈ (matchSubtrees (DiffTree.ofArena hashNode A ra) (DiffTree.ofArena hashNode B rb) k a b M).pairs := by
  induction a using hA.induct_down with
  | step a ih =>
    intro b k M u v hc hb hk hM hfree
    have hs := size_eq hA a
    obtain ⟨k, rfl⟩ : ∃ j, k = j + 1 := ⟨k - 1, by omega⟩
    have hau := hc.ancA hA
    have hbv := hc.ancB hB
    have hcA : M.containsA a = false := by
      rw [Matching.containsA_false]
      cases e : M.getB a with
      | none => rfl
      | some y => exact absurd ⟨.refl, hau⟩ (hfree _ ((hM.getB _ _).1 e)).1
    have hcB : M.containsB b = false := by
      rw [Matching.containsB_false]
      cases e : M.getA b with
      | none => rfl
      | some y => exact absurd ⟨.refl, hbv⟩ (hfree _ ((hM.getA _ _).1 e)).2
    simp only [matchSubtrees, hcA, hcB, Bool.or_false]
    rw [if_neg (by simp)]
    have hM1 := hM.add hcA hcB trivial
    rcases Corr.iff.1 hc with ⟨rfl, rfl⟩ | ⟨ho, ⟨c, d⟩, hmem, hcd⟩
    · have h0 : (u, v) ∈ (M.add u v).pairs := List.mem_append_right _ (by simp)
      split
      · exact h0
      · exact foldl_inv (P := fun M' : Matching => (u, v) ∈ M'.pairs) _ _ h0
          fun M' hM' q _ => matchSubtrees_keeps _ _ _ M' _ hM'
    · have hor : ((DiffTree.ofArena hashNode A ra).isOpaque a || (DiffTree.ofArena hashNode B rb).isOpaque b) = false := by
        rw [show (DiffTree.ofArena hashNode A ra).isOpaque a = false from ho,
          show (DiffTree.ofArena hashNode B rb).isOpaque b = false from hoB b hb]; rfl
      rw [if_neg (by rw [hor]; exact Bool.false_ne_true)]
      obtain ⟨i, hz⟩ := List.mem_iff_getElem?.1 hmem
      obtain ⟨hic, hid⟩ := List.getElem?_zip_eq_some.1 hz
      have hpc := (hA.mem_iff _ _).1 (List.mem_of_getElem? hic)
      have hpd := (hB.mem_iff _ _).1 (List.mem_of_getElem? hid)
      show (u, v) ∈ Matching.pairs (((A.children a).zip (B.children b)).foldl _ _)
      -- all children before number `i`
      have hfold : ∀ (l : List (Nat × Nat)) (M : Matching) (i : Nat), l[i]? = some (c, d) →
          (∀ j q, l[j]? = some q → j ≠ i → A.parent q.1 = some a ∧ B.parent q.2 = some b ∧ q.1 ≠ c ∧ q.2 ≠ d) →
          M.Good (fun _ _ => True) →
          (∀ p ∈ M.pairs, ¬ (A.Anc c p.1 ∧ A.Anc p.1 u) ∧ ¬ (B.Anc d p.2 ∧ B.Anc p.2 v)) →
          (u, v) ∈ (l.foldl (fun M p => matchSubtrees (DiffTree.ofArena hashNode A ra)
            (DiffTree.ofArena hashNode B rb) k p.1 p.2 M) M).pairs := by
        intro l
        induction l with
        | nil => intro M i hi; cases hi
        | cons q l ihl =>
          intro M i hi hother hM hfr
          rw [List.foldl_cons]
          have hM' : (matchSubtrees (DiffTree.ofArena hashNode A ra) (DiffTree.ofArena hashNode B rb) k q.1 q.2
              M).Good (fun _ _ => True) := (closed_true _ _).matchSubtrees k q.1 q.2 M hM trivial
          cases i with
          | zero =>
            simp only [List.getElem?_cons_zero, Option.some.injEq] at hi
            subst hi
            refine foldl_inv (P := fun M' : Matching => (u, v) ∈ M'.pairs) _ _ ?_
              fun M' hM' q _ => matchSubtrees_keeps _ _ _ M' _ hM'
            have : (A.descendants c).length ≤ _ := le_sum (List.mem_map_of_mem
              (f := fun c => (A.descendants c).length) (List.mem_of_getElem? hic))
            exact ih c (List.mem_of_getElem? hic) d k M u v hcd (.step hpd hb) (by omega) hM hfr
          | succ i =>
            refine ihl _ i hi (fun j q hj hne => hother (j + 1) q hj (by omega)) hM' ?_
            intro p hp
            rcases matchSubtrees_within hA hB k q.1 q.2 M p hp with hp | ⟨h1, h2⟩
            · exact hfr p hp
            · obtain ⟨e1, e2, e3, e4⟩ := hother 0 q rfl (by omega)
              exact ⟨fun h => e3 (sibling_eq hA e1 hpc h1 h.1), fun h => e4 (sibling_eq hB e2 hpd h2 h.1)⟩
      refine hfold _ _ i hz ?_ hM1 ?_
      · intro j q hj hne
        rw [List.getElem?_zip_eq_some] at hj
        refine ⟨(hA.mem_iff _ _).1 (List.mem_of_getElem? hj.1), (hB.mem_iff _ _).1 (List.mem_of_getElem? hj.2), ?_, ?_⟩
        · intro e
          have h1 := hj.1
          rw [e, ← hic] at h1
          exact hne ((List.getElem?_inj (List.getElem?_eq_some_iff.1 hj.1).1 (hA.nodup a)).1 (h1.trans rfl))
        · intro e
          have h1 := hj.2
          rw [e, ← hid] at h1
          exact hne ((List.getElem?_inj (List.getElem?_eq_some_iff.1 hj.2).1 (hB.nodup b)).1 (h1.trans rfl))
      · intro p hp
        rcases List.mem_append.1 hp with hp | hp
        · exact ⟨fun h => (hfree p hp).1 ⟨(Arena.Anc.step hpc .refl).trans h.1, h.2⟩,
            fun h => (hfree p hp).2 ⟨(Arena.Anc.step hpd .refl).trans h.1, h.2⟩⟩
        · rw [List.mem_singleton] at hp; subst hp
          exact ⟨fun h => not_anc_parent hA hpc h.1, fun h => not_anc_parent hB hpd h.1⟩

/-! ### Levels -/

theorem Level.unique_aux (hA : A.WF) (hB : B.WF) {x y : Nat} (h : Level A B ra rb x y) :
    ∀ z, Level A B ra rb x z → B.Anc y z → y = z := by
  induction h with
  | root =>
    intro z hz _
    cases hz with
    | root => rfl
    | child h ha _ => exact absurd h.ancA (not_anc_parent hA ha)
  | @child p q a b h ha hb ih =>
    intro z hz hyz
    cases hz with
    | root => exact absurd h.ancA (not_anc_parent hA ha)
    | @child p' q' _ _ h' ha' hb' =>
      rw [ha] at ha'; cases ha'
      rcases hyz.cases' with e | ⟨w, hw, hbw⟩
      · exact e
      · rw [hb'] at hw; cases hw
        have e := ih q' h' ((Arena.Anc.step hb .refl).trans hbw)
        subst e
        exact absurd hbw (not_anc_parent hB hb)

theorem Level.uniqueB (hA : A.WF) (hB : B.WF) {x y z : Nat} (h : Level A B ra rb x y) (h' : Level A B ra rb x z)
    (ha : B.Anc y z) : z = y := (h.unique_aux hA hB z h' ha).symm

theorem Level.swap {x y : Nat} (h : Level A B ra rb x y) : Level B A rb ra y x := by
  induction h with
  | root => exact .root
  | child _ ha hb ih => exact .child ih hb ha

theorem Level.uniqueA (hA : A.WF) (hB : B.WF) {x y z : Nat} (h : Level A B ra rb x y) (h' : Level A B ra rb z y)
    (ha : A.Anc x z) : z = x := h.swap.uniqueB hB hA h'.swap ha

theorem Level.trans {a b x y : Nat} (h : Level A B ra rb a b) (h' : Level A B a b x y) : Level A B ra rb x y := by
  induction h' with
  | root => exact h
  | child _ ha hb ih => exact .child ih ha hb

theorem Corr.trans {a b x y u v : Nat} (h : Corr A B a b x y) (h' : Corr A B x y u v) : Corr A B a b u v := by
  induction h' with
  | root => exact h
  | child _ ho ha hb ih => exact .child ih ho ha hb

/-- The place in `b` of a node inside `a`, when both have the same shape. -/
theorem copy_of_shape (hA : A.WF) (hB : B.WF) (hoA : ∀ a, A.Anc ra a → (A.data a).props.isOpaque = false)
    {a b x : Nat} (ha : A.Anc ra a) (e : A.shape a = B.shape b) (hx : A.Anc a x) :
    ∃ z, Corr A B a b x z ∧ A.shape x = B.shape z := by
  induction hx with
  | refl => exact ⟨b, .root, e⟩
  | @step n p hp hap ih =>
    obtain ⟨q, hc, e'⟩ := ih
    rw [hA.shape_eq, hB.shape_eq] at e'
    injection e' with _ _ e3
    obtain ⟨i, hi⟩ := List.mem_iff_getElem?.1 ((hA.mem_iff _ _).2 hp)
    have e4 : ((A.children p).map A.shape)[i]? = ((B.children q).map B.shape)[i]? := by rw [e3]
    rw [List.getElem?_map, List.getElem?_map, hi] at e4
    cases hz : (B.children q)[i]? with
    | none => rw [hz] at e4; cases e4
    | some z =>
      rw [hz] at e4
      exact ⟨z, .child hc (hoA p (ha.trans hap)) hi hz, Option.some.inj e4⟩

/-- The same the other way round. -/
theorem copy_of_shape' (hA : A.WF) (hB : B.WF) (hoA : ∀ a, A.Anc ra a → (A.data a).props.isOpaque = false)
    {a b y : Nat} (ha : A.Anc ra a) (e : A.shape a = B.shape b) (hy : B.Anc b y) :
    ∃ z, Corr A B a b z y ∧ A.shape z = B.shape y := by
  induction hy with
  | refl => exact ⟨a, .root, e⟩
  | @step n q hq hbq ih =>
    obtain ⟨p, hc, e'⟩ := ih
    rw [hA.shape_eq, hB.shape_eq] at e'
    injection e' with _ _ e3
    obtain ⟨i, hi⟩ := List.mem_iff_getElem?.1 ((hB.mem_iff _ _).2 hq)
    have e4 : ((A.children p).map A.shape)[i]? = ((B.children q).map B.shape)[i]? := by rw [e3]
    rw [List.getElem?_map, List.getElem?_map, hi] at e4
    cases hz : (A.children p)[i]? with
    | none => rw [hz] at e4; cases e4
    | some z =>
      rw [hz] at e4
      exact ⟨z, .child hc (hoA p (ha.trans (hc.ancA hA))) hz hi, Option.some.inj e4⟩

/-! ### Pieces -/

variable (A B) in
/-- `a` and `b` are on the way to `x` and `y`: as many levels above them, and all nodes on the way are of the same
kind. -/
inductive Down (x y : Nat) : Nat → Nat → Prop
  | refl : Down x y x y
  | step {a b c d : Nat} (ha : A.parent c = some a) (hb : B.parent d = some b)
      (hk : (A.data c).kind = (B.data d).kind) (h : Down x y c d) : Down x y a b

theorem Down.ancA {x y a b : Nat} (h : Down A B x y a b) : A.Anc a x := by
  induction h with
  | refl => exact .refl
  | step ha _ _ _ ih => exact (Arena.Anc.step ha .refl).trans ih

theorem Down.ancB {x y a b : Nat} (h : Down A B x y a b) : B.Anc b y := by
  induction h with
  | refl => exact .refl
  | step _ hb _ _ ih => exact (Arena.Anc.step hb .refl).trans ih

theorem Down.level {x y a b : Nat} (h : Down A B x y a b) : Level A B a b x y := by
  induction h with
  | refl => exact .root
  | step ha hb _ _ ih => exact (Level.child .root ha hb).trans ih

theorem Down.snoc {p q x y a b : Nat} (h : Down A B p q a b) (ha : A.parent x = some p) (hb : B.parent y = some q)
    (hk : (A.data x).kind = (B.data y).kind) : Down A B x y a b := by
  induction h with
  | refl => exact .step ha hb hk .refl
  | step ha' hb' hk' _ ih => exact .step ha' hb' hk' ih

theorem Trail.down {x y : Nat} (h : Trail A B ra rb x y) : Down A B x y ra rb := by
  induction h with
  | root => exact .refl
  | child _ ha hb hk ih => exact ih.snoc ha hb hk

variable (hashNode A B ra rb) in
/-- `x` and `y` have the same shape, below parents of the same kinds, and the trees have no node inside `x` or `y` that
has the shape of a node outside of the other, not counting nodes of inner kinds, below which there are inner nodes
only. -/
structure Piece (inner : HKind → Bool) (x y : Nat) : Prop where
  clearA : ∀ a, A.Anc ra a → (A.data a).props.isOpaque = false
  clearB : ∀ b, B.Anc rb b → (B.data b).props.isOpaque = false
  hash : NoCollisionFrom hashNode A ra B rb
  innerA : ∀ n p, A.parent n = some p → A.Anc ra p → inner (A.data p).kind = true → inner (A.data n).kind = true
  innerB : ∀ n p, B.parent n = some p → B.Anc rb p → inner (B.data p).kind = true → inner (B.data n).kind = true
  down : Down A B x y ra rb
  same : A.shape x = B.shape y
  apart : ∀ n m, A.Anc ra n → B.Anc rb m → inner (A.data n).kind = false → A.shape n = B.shape m →
    (A.Anc x n ↔ B.Anc y m)

namespace Piece

variable {inner : HKind → Bool} {x y : Nat} (hA : A.WF) (hB : B.WF) (h : Piece hashNode A B ra rb inner x y)
include hA hB h

theorem innerDownA {a n : Nat} (ha : A.Anc ra a) (hn : A.Anc a n) (hi : inner (A.data a).kind = true) :
    inner (A.data n).kind = true := by
  induction hn with
  | refl => exact hi
  | step hp hap ih => exact h.innerA _ _ hp (ha.trans hap) ih

theorem innerDownB {b n : Nat} (hb : B.Anc rb b) (hn : B.Anc b n) (hi : inner (B.data b).kind = true) :
    inner (B.data n).kind = true := by
  induction hn with
  | refl => exact hi
  | step hp hap ih => exact h.innerB _ _ hp (hb.trans hap) ih

theorem kind_eq {a b : Nat} (e : A.shape a = B.shape b) : (A.data a).kind = (B.data b).kind := by
  rw [hA.shape_eq, hB.shape_eq] at e
  injection e

/-- A pair that neither touches the piece nor the way to it. -/
def Free (_ : Piece hashNode A B ra rb inner x y) (p : Nat × Nat) : Prop :=
  (inner (A.data p.1).kind = true ∧ inner (B.data p.2).kind = true) ∨
  (¬ A.Anc x p.1 ∧ ¬ A.Anc p.1 x ∧ ¬ B.Anc y p.2 ∧ ¬ B.Anc p.2 y)

/-- What holds of the stack and the matching. -/
def Hold (s : List (Nat × Nat) × Matching) : Prop :=
  s.2.Good (fun _ _ => True) ∧
  ((∀ a b, Corr A B x y a b → inner (A.data a).kind = false → (a, b) ∈ s.2.pairs) ∨
    ((∀ p ∈ s.2.pairs, h.Free p) ∧ (∃ p ∈ s.1, Down A B x y p.1 p.2) ∧
      ∀ p ∈ s.1, Level A B ra rb p.1 p.2 ∧ (p = (x, y) ∨ ¬ (A.Anc x p.1 ∧ B.Anc y p.2))))

theorem step (hx : inner (A.data x).kind = false) {d : Nat} (hd : (A.descendants ra).length ≤ d)
    (s : List (Nat × Nat) × Matching) (hs : h.Hold s) :
    h.Hold (topDownStep (DiffTree.ofArena hashNode A ra) (DiffTree.ofArena hashNode B rb) Config.diff d s) := by
  obtain ⟨st, M⟩ := s
  obtain ⟨hM, hp⟩ := hs
  have hxr : A.Anc ra x := h.down.ancA
  have hyr : B.Anc rb y := h.down.ancB
  have hlv : Level A B ra rb x y := h.down.level
  have hy : inner (B.data y).kind = false := by rw [← h.kind_eq hA hB h.same]; exact hx
  -- nodes on the way are not inner
  have hwayA : ∀ a, A.Anc ra a → A.Anc a x → inner (A.data a).kind = false := by
    intro a h1 h2
    cases e : inner (A.data a).kind with
    | false => rfl
    | true => rw [h.innerDownA hA hB h1 h2 e] at hx; cases hx
  have hwayB : ∀ b, B.Anc rb b → B.Anc b y → inner (B.data b).kind = false := by
    intro b h1 h2
    cases e : inner (B.data b).kind with
    | false => rfl
    | true => rw [h.innerDownB hA hB h1 h2 e] at hy; cases hy
  cases st with
  | nil => exact ⟨hM, hp⟩
  | cons q st =>
    obtain ⟨a, b⟩ := q
    simp only [topDownStep]
    rw [if_neg (show ¬ _ < Config.diff.minHeight from Nat.not_lt_zero _)]
    rcases hp with hp | ⟨hf, ⟨w, hw, hdown⟩, hst⟩
    · -- all pairs of the piece are there already
      have hadd : ∀ M' : Matching, M'.Good (fun _ _ => True) → (∀ p ∈ M.pairs, p ∈ M'.pairs) →
          ∀ st', h.Hold (st', M') := fun M' hM' hk st' => ⟨hM', .inl fun a b hc hi => hk _ (hp a b hc hi)⟩
      split
      · exact hadd M hM (fun _ hp => hp) _
      · next hin =>
        split
        · refine hadd _ ?_ (matchSubtrees_keeps _ _ _ _) _
          exact (closed_true _ _).toIf.matchSubtrees d a b M (hM.toIf _) trivial fun _ _ => trivial
        · split
          · refine hadd _ ?_ ?_ _
            · split
              · exact hM.add (not_contains hin).2.1 (not_contains hin).2.2 trivial
              · exact hM
            · intro p hp
              split
              · exact M.pairs_add_sub a b p hp
              · exact hp
          · exact hadd M hM (fun _ hp => hp) _
    · have hst' : ∀ p ∈ st, Level A B ra rb p.1 p.2 ∧ (p = (x, y) ∨ ¬ (A.Anc x p.1 ∧ B.Anc y p.2)) :=
        fun p hp => hst p (List.mem_cons_of_mem _ hp)
      obtain ⟨hlab, hnot⟩ := hst (a, b) (by simp)
      have ha : A.Anc ra a := hlab.ancA
      have hb : B.Anc rb b := hlab.ancB
      split
      · -- the head is taken already, so it is not on the way
        next hin =>
        refine ⟨hM, .inr ⟨hf, ⟨w, ?_, hdown⟩, hst'⟩⟩
        rcases List.mem_cons.1 hw with rfl | hw
        · exfalso
          have h1 := hdown.ancA
          have h2 := hdown.ancB
          rw [Bool.or_eq_true] at hin
          rcases hin with hin | hin
          · cases e : M.getB a with
            | none => rw [(Matching.containsA_false ..).2 e] at hin; cases hin
            | some z =>
              rcases hf _ ((hM.getB _ _).1 e) with h3 | h3
              · rw [hwayA a ha h1] at h3; cases h3.1
              · exact h3.2.1 h1
          · cases e : M.getA b with
            | none => rw [(Matching.containsB_false ..).2 e] at hin; cases hin
            | some z =>
              rcases hf _ ((hM.getA _ _).1 e) with h3 | h3
              · rw [hwayB b hb h2] at h3; cases h3.2
              · exact h3.2.2.2 h2
        · exact hw
      · next hin =>
        split
        · next heq =>
          -- equal subtrees
          simp only [Bool.and_eq_true, beq_iff_eq] at heq
          have e := h.hash a b ha hb heq.1
          have hgood : (matchSubtrees (DiffTree.ofArena hashNode A ra) (DiffTree.ofArena hashNode B rb) d a b
              M).Good (fun _ _ => True) := (closed_true _ _).matchSubtrees d a b M hM trivial
          by_cases hax : A.Anc a x
          · -- with the piece in it
            obtain ⟨z, hc, ez⟩ := copy_of_shape hA hB h.clearA ha e hax
            have h1 := (h.apart x z hxr (hb.trans (hc.ancB hB)) hx ez).1 .refl
            have h2 := hlv.uniqueB hA hB (hlab.trans (hc.level hA hB)) h1
            subst h2
            refine ⟨hgood, .inl fun u v huv hu => ?_⟩
            refine matchSubtrees_reach (hashNode := hashNode) hA hB h.clearB a b d M u v (hc.trans huv) hb
              (Nat.le_trans (List.Sublist.length_le (hA.descendants_sublist ha)) hd) hM ?_
            intro p hp
            have hxu := huv.ancA hA
            have hyv := huv.ancB hB
            have hv : inner (B.data v).kind = false := by
              obtain ⟨v', h3, h4⟩ := copy_of_shape hA hB h.clearA hxr h.same hxu
              rw [← Corr.funB hA hB h3 v huv, ← h.kind_eq hA hB h4]; exact hu
            rcases hf p hp with h3 | h3
            · refine ⟨fun h4 => ?_, fun h4 => ?_⟩
              · rw [h.innerDownA hA hB (ha.trans h4.1) h4.2 h3.1] at hu; cases hu
              · rw [h.innerDownB hA hB (hb.trans h4.1) h4.2 h3.2] at hv; cases hv
            · refine ⟨fun h4 => ?_, fun h4 => ?_⟩
              · rcases Arena.anc_total h4.2 hxu with h5 | h5
                · exact h3.2.1 h5
                · exact h3.1 h5
              · rcases Arena.anc_total h4.2 hyv with h5 | h5
                · exact h3.2.2.2 h5
                · exact h3.2.2.1 h5
          · -- beside the piece, or inner nodes
            refine ⟨hgood, .inr ⟨fun p hp => ?_, ⟨w, ?_, hdown⟩, hst'⟩⟩
            · rcases matchSubtrees_within hA hB d a b M p hp with hp | ⟨h1, h2⟩
              · exact hf p hp
              · cases hi : inner (A.data a).kind with
                | true =>
                  refine .inl ⟨h.innerDownA hA hB ha h1 hi, h.innerDownB hA hB hb h2 ?_⟩
                  rw [← h.kind_eq hA hB e]; exact hi
                | false =>
                  have hap := h.apart a b ha hb hi e
                  have hxa : ¬ A.Anc x a := by
                    intro h3
                    rcases hnot with h4 | h4
                    · cases h4; exact hax .refl
                    · exact h4 ⟨h3, hap.1 h3⟩
                  have hyb : ¬ B.Anc y b := fun h3 => hxa (hap.2 h3)
                  have hby : ¬ B.Anc b y := by
                    intro h3
                    obtain ⟨z, hc, ez⟩ := copy_of_shape' hA hB h.clearA ha e h3
                    have hz : inner (A.data z).kind = false := by rw [h.kind_eq hA hB ez]; exact hy
                    have h4 := (h.apart z y (ha.trans (hc.ancA hA)) hyr hz ez).2 .refl
                    have h5 := hlv.uniqueA hA hB (hlab.trans (hc.level hA hB)) h4
                    subst h5
                    exact hax (hc.ancA hA)
                  refine .inr ⟨fun h3 => ?_, fun h3 => hax (h1.trans h3), fun h3 => ?_, fun h3 => hby (h2.trans h3)⟩
                  · rcases Arena.anc_total h1 h3 with h4 | h4
                    · exact hax h4
                    · exact hxa h4
                  · rcases Arena.anc_total h2 h3 with h4 | h4
                    · exact hby h4
                    · exact hyb h4
            · rcases List.mem_cons.1 hw with rfl | hw
              · exact absurd hdown.ancA hax
              · exact hw
        · next hneq =>
          have hnxy : (a, b) ≠ (x, y) := by
            intro e
            obtain ⟨rfl, rfl⟩ := Prod.mk.inj e
            apply hneq
            have h1 := hash_of_shape (hashNode := hashNode) (ra := ra) (rb := rb) hA hB _ _ h.same
            have h2 : (DiffTree.ofArena hashNode A ra).kind a = (DiffTree.ofArena hashNode B rb).kind b :=
              h.kind_eq hA hB h.same
            rw [h1, h2]; simp
          have hnot' : ¬ (A.Anc x a ∧ B.Anc y b) := by
            rcases hnot with h4 | h4
            · exact absurd h4 hnxy
            · exact h4
          rw [if_neg]
          · refine ⟨hM, .inr ⟨hf, ?_, ?_⟩⟩
            · rcases List.mem_cons.1 hw with rfl | hw
              · cases hdown with
                | refl => exact absurd rfl hnxy
                | @step _ _ c d' hca hdb hk hrest =>
                  refine ⟨(c, d'), List.mem_append_left _ ?_, hrest⟩
                  rw [List.mem_reverse, mem_childCandidates]
                  refine ⟨(hA.mem_iff _ _).2 hca, (hB.mem_iff _ _).2 hdb, ?_, .inr hk⟩
                  rw [Matching.containsB_false]
                  cases e : M.getA d' with
                  | none => rfl
                  | some z =>
                    rcases hf _ ((hM.getA _ _).1 e) with h3 | h3
                    · rw [hwayB d' (.step hdb hb) hrest.ancB] at h3; cases h3.2
                    · exact absurd hrest.ancB h3.2.2.2
              · exact ⟨w, List.mem_append_right _ hw, hdown⟩
            · intro p hp
              rcases List.mem_append.1 hp with hp | hp
              · rw [List.mem_reverse, mem_childCandidates] at hp
                have h1 := (hA.mem_iff _ _).1 hp.1
                have h2 := (hB.mem_iff _ _).1 hp.2.1
                have hl : Level A B ra rb p.1 p.2 := .child hlab h1 h2
                refine ⟨hl, ?_⟩
                by_cases hin2 : A.Anc x p.1 ∧ B.Anc y p.2
                · left
                  rcases hin2.1.cases' with e1 | ⟨p1, hp1, hx1⟩
                  · have e2 := hlv.uniqueB hA hB (e1 ▸ hl) hin2.2
                    exact Prod.ext e1.symm e2
                  · rcases hin2.2.cases' with e1 | ⟨p2, hp2, hy2⟩
                    · have e2 := hlv.uniqueA hA hB (e1 ▸ hl) hin2.1
                      exact Prod.ext e2 e1.symm
                    · rw [show A.parent p.1 = some a from h1] at hp1
                      rw [show B.parent p.2 = some b from h2] at hp2
                      cases hp1; cases hp2
                      exact absurd ⟨hx1, hy2⟩ hnot'
                · exact .inr hin2
              · exact hst' p hp
          · rw [Bool.or_eq_true]
            rintro (h1 | h1)
            · rw [show (DiffTree.ofArena hashNode A ra).isOpaque a = false from h.clearA a ha] at h1; cases h1
            · rw [show (DiffTree.ofArena hashNode B rb).isOpaque b = false from h.clearB b hb] at h1; cases h1

/-- The nodes of the piece, but for inner nodes, are matched with the nodes at the same places. -/
theorem matched {a b : Nat} (hc : Corr A B x y a b) (hi : inner (A.data a).kind = false) :
    (a, b) ∈ (diffMatching (DiffTree.ofArena hashNode A ra) (DiffTree.ofArena hashNode B rb)).pairs := by
  apply diffMatching_keeps
  have hx : inner (A.data x).kind = false := by
    cases e : inner (A.data x).kind with
    | false => rfl
    | true => rw [h.innerDownA hA hB h.down.ancA (hc.ancA hA) e] at hi; cases hi
  have h1 := C39_candidate_loop_terminates hashNode (ra := ra) (rb := rb) hA hB Config.diff Matching.empty
    ((A.descendants ra).length * (B.descendants rb).length) (by omega)
  have hk : (A.descendants ra).length ≤
      matchDepth (DiffTree.ofArena hashNode A ra) (DiffTree.ofArena hashNode B rb) := by
    show _ ≤ (A.descendants ra).length + (B.descendants rb).length + 1
    omega
  have h2 : ∀ n s, h.Hold s → h.Hold (steps (topDownStep (DiffTree.ofArena hashNode A ra)
      (DiffTree.ofArena hashNode B rb) Config.diff (matchDepth (DiffTree.ofArena hashNode A ra)
        (DiffTree.ofArena hashNode B rb))) n s) := by
    intro n
    induction n with
    | zero => exact fun s hs => hs
    | succ n ih => exact fun s hs => ih _ (h.step hA hB hx hk s hs)
  have h0 : h.Hold ([(ra, rb)], Matching.empty) := by
    refine ⟨Matching.Good.empty _, .inr ⟨nofun, ⟨(ra, rb), by simp, h.down⟩, ?_⟩⟩
    intro p hp
    rw [List.mem_singleton] at hp
    subst hp
    refine ⟨.root, ?_⟩
    by_cases e : A.Anc x ra ∧ B.Anc y rb
    · exact .inl (Prod.ext (hA.anc_antisymm h.down.ancA e.1) (hB.anc_antisymm h.down.ancB e.2))
    · exact .inr e
  have h3 := h2 ((A.descendants ra).length * (B.descendants rb).length) _ h0
  rw [h1] at h3
  rcases h3.2 with h4 | ⟨_, ⟨_, h4, _⟩, _⟩
  · exact h4 a b hc hi
  · cases h4

end Piece

/-! ### Ranks -/

theorem size_of_shape (hA : A.WF) (hB : B.WF) (a : Nat) : ∀ b, A.shape a = B.shape b →
    (A.descendants a).length = (B.descendants b).length := by
  induction a using hA.induct_down with
  | step a ih =>
    intro b e
    rw [hA.shape_eq, hB.shape_eq] at e
    injection e with _ _ e3
    rw [size_eq hA, size_eq hB]
    congr 2
    apply List.ext_getElem?
    intro i
    have e4 : ((A.children a).map A.shape)[i]? = ((B.children b).map B.shape)[i]? := by rw [e3]
    simp only [List.getElem?_map] at e4 ⊢
    cases h1 : (A.children a)[i]? with
    | none => cases h2 : (B.children b)[i]? with
      | none => rfl
      | some d => rw [h1, h2] at e4; cases e4
    | some c => cases h2 : (B.children b)[i]? with
      | none => rw [h1, h2] at e4; cases e4
      | some d =>
        rw [h1, h2] at e4
        exact congrArg some (ih c (List.mem_of_getElem? h1) d (Option.some.inj e4))

theorem exists_bound (f : Nat → Nat) (k : Nat) : ∃ R, ∀ n, n < k → f n < R := by
  induction k with
  | zero => exact ⟨0, fun n hn => by omega⟩
  | succ k ih =>
    obtain ⟨R, hR⟩ := ih
    refine ⟨R + f k + 1, fun n hn => ?_⟩
    by_cases e : n = k
    · subst e; omega
    · have := hR n (by omega); omega

/-- Ranks of the nodes, if all nodes outside of the unchanged pieces are layered. -/
theorem ranked_of_pieces (hA : A.WF) (hB : B.WF) {inner : HKind → Bool} {rank : HKind → Nat} {P : Nat → Nat → Prop}
    (hP : ∀ x y, P x y → Piece hashNode A B ra rb inner x y) {M : Matching}
    (hM : M.Good (fun a b => (A.data a).kind = (B.data b).kind ∧ A.Anc ra a ∧ B.Anc rb b))
    (hsub : ∀ p ∈ (diffMatching (DiffTree.ofArena hashNode A ra) (DiffTree.ofArena hashNode B rb)).pairs, p ∈ M.pairs)
    (hreach : ∀ n p, A.parent n = some p → A.Anc ra p)
    (hlA : ∀ n p, A.parent n = some p → A.Anc ra p →
      (inner (A.data p).kind = true → inner (A.data n).kind = true ∧ rank (A.data p).kind < rank (A.data n).kind) ∧
      (inner (A.data p).kind = false → inner (A.data n).kind = true ∨ rank (A.data p).kind < rank (A.data n).kind ∨
        ∃ x y, P x y ∧ A.Anc x n))
    (hlB : ∀ n p, B.parent n = some p → B.Anc rb p →
      (inner (B.data p).kind = true → inner (B.data n).kind = true ∧ rank (B.data p).kind < rank (B.data n).kind) ∧
      (inner (B.data p).kind = false → inner (B.data n).kind = true ∨ rank (B.data p).kind < rank (B.data n).kind ∨
        ∃ x y, P x y ∧ B.Anc y n)) : Ranked A B rb M := by
  classical
  obtain ⟨RA, hRA⟩ := exists_bound (fun n => rank (A.data n).kind) A.next
  obtain ⟨RB, hRB⟩ := exists_bound (fun n => rank (B.data n).kind) B.next
  let KA : Nat → Prop := fun a => ∃ x y, P x y ∧ A.Anc x a
  let KB : Nat → Prop := fun b => ∃ x y, P x y ∧ B.Anc y b
  let R := RA + RB
  let N := (A.descendants ra).length + (B.descendants rb).length
  refine ⟨fun a => if inner (A.data a).kind then R + N + 1 + rank (A.data a).kind
      else if KA a then R + (N - (A.descendants a).length) else rank (A.data a).kind,
    fun b => if inner (B.data b).kind then R + N + 1 + rank (B.data b).kind
      else if KB b then R + (N - (B.descendants b).length) else rank (B.data b).kind, ?_, ?_, ?_⟩
  · intro a b hab
    obtain ⟨hk, ha, hb⟩ := hM.rel a b hab
    show (if _ then _ else _) = (if _ then _ else _)
    rw [hk]
    cases hi : inner (B.data b).kind with
    | true => rfl
    | false =>
      have hia : inner (A.data a).kind = false := by rw [hk]; exact hi
      rw [if_neg Bool.false_ne_true, if_neg Bool.false_ne_true]
      have key : ∀ a b, (a, b) ∈ M.pairs → inner (A.data a).kind = false → ∀ x y, P x y → A.Anc x a →
          B.Anc y b ∧ A.shape a = B.shape b := by
        intro a b hab hia x y hp hxa
        have h := hP x y hp
        obtain ⟨b', hc, e⟩ := copy_of_shape hA hB h.clearA h.down.ancA h.same hxa
        have hm := hsub _ (h.matched hA hB hc hia)
        have e1 := (hM.getB _ _).2 hm
        rw [(hM.getB _ _).2 hab] at e1
        cases e1
        exact ⟨hc.ancB hB, e⟩
      have key' : ∀ x y, P x y → B.Anc y b → A.Anc x a := by
        intro x y hp hyb
        have h := hP x y hp
        obtain ⟨a', hc, e⟩ := copy_of_shape' hA hB h.clearA h.down.ancA h.same hyb
        have hia' : inner (A.data a').kind = false := by rw [h.kind_eq hA hB e]; exact hi
        have hm := hsub _ (h.matched hA hB hc hia')
        have e1 := (hM.getA _ _).2 hm
        rw [(hM.getA _ _).2 hab] at e1
        cases e1
        exact hc.ancA hA
      by_cases hka : KA a
      · obtain ⟨x, y, hp, hxa⟩ := id hka
        obtain ⟨hyb, e⟩ := key a b hab hia x y hp hxa
        rw [if_pos hka, if_pos (show KB b from ⟨x, y, hp, hyb⟩), size_of_shape hA hB a b e]
      · rw [if_neg hka, if_neg]
        rintro ⟨x, y, hp, hyb⟩
        exact hka ⟨x, y, hp, key' x y hp hyb⟩
  · intro n p hnp
    have hpa := hreach n p hnp
    obtain ⟨hln, hlp⟩ := hA.lt_of_parent _ _ hnp
    obtain ⟨h1, h2⟩ := hlA n p hnp hpa
    have hb1 := hRA p hlp
    have hsz : (A.descendants n).length < (A.descendants p).length := by
      rw [size_eq hA p]
      have := le_sum (List.mem_map_of_mem (f := fun c => (A.descendants c).length) ((hA.mem_iff _ _).2 hnp))
      have : (A.descendants n).length ≤ _ := this
      omega
    have hszp : (A.descendants p).length ≤ (A.descendants ra).length := (hA.descendants_sublist hpa).length_le
    show (if _ then _ else _) < (if _ then _ else _)
    cases hip : inner (A.data p).kind with
    | true =>
      obtain ⟨h3, h4⟩ := h1 hip
      rw [h3, if_pos rfl, if_pos rfl]
      omega
    | false =>
      rw [if_neg Bool.false_ne_true]
      have hlow : (if KA p then R + (N - (A.descendants p).length) else rank (A.data p).kind) < R + N + 1 := by
        show _ < RA + RB + N + 1
        split
        · show RA + RB + _ < _; omega
        · omega
      cases hin : inner (A.data n).kind with
      | true => rw [if_pos rfl]; omega
      | false =>
        rw [if_neg Bool.false_ne_true]
        by_cases hkp : KA p
        · obtain ⟨x, y, hp, hx⟩ := id hkp
          rw [if_pos hkp, if_pos (show KA n from ⟨x, y, hp, .step hnp hx⟩)]
          show _ + ((A.descendants ra).length + _ - _) < _ + ((A.descendants ra).length + _ - _)
          omega
        · rw [if_neg hkp]
          by_cases hkn : KA n
          · rw [if_pos hkn]; show _ < RA + RB + _; omega
          · rw [if_neg hkn]
            rcases h2 hip with h3 | h3 | h3
            · rw [hin] at h3; cases h3
            · exact h3
            · exact absurd h3 hkn
  · intro n p hnp hpa
    obtain ⟨hln, hlp⟩ := hB.lt_of_parent _ _ hnp
    obtain ⟨h1, h2⟩ := hlB n p hnp hpa
    have hb1 := hRB p hlp
    have hsz : (B.descendants n).length < (B.descendants p).length := by
      rw [size_eq hB p]
      have := le_sum (List.mem_map_of_mem (f := fun c => (B.descendants c).length) ((hB.mem_iff _ _).2 hnp))
      have : (B.descendants n).length ≤ _ := this
      omega
    have hszp : (B.descendants p).length ≤ (B.descendants rb).length := (hB.descendants_sublist hpa).length_le
    show (if _ then _ else _) < (if _ then _ else _)
    cases hip : inner (B.data p).kind with
    | true =>
      obtain ⟨h3, h4⟩ := h1 hip
      rw [h3, if_pos rfl, if_pos rfl]
      omega
    | false =>
      rw [if_neg Bool.false_ne_true]
      have hlow : (if KB p then R + (N - (B.descendants p).length) else rank (B.data p).kind) < R + N + 1 := by
        show _ < RA + RB + N + 1
        split
        · show RA + RB + _ < _; omega
        · omega
      cases hin : inner (B.data n).kind with
      | true => rw [if_pos rfl]; omega
      | false =>
        rw [if_neg Bool.false_ne_true]
        by_cases hkp : KB p
        · obtain ⟨x, y, hp, hx⟩ := id hkp
          rw [if_pos hkp, if_pos (show KB n from ⟨x, y, hp, .step hnp hx⟩)]
          show _ + (_ + (B.descendants rb).length - _) < _ + (_ + (B.descendants rb).length - _)
          omega
        · rw [if_neg hkp]
          by_cases hkn : KB n
          · rw [if_pos hkn]; show _ < RA + RB + _; omega
          · rw [if_neg hkn]
            rcases h2 hip with h3 | h3 | h3
            · rw [hin] at h3; cases h3
            · exact h3
            · exact absurd h3 hkn

end Hotmeal
