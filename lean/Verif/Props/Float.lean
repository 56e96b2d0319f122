import Verif.Lemmas.Float
import Verif.Props.Traffic

set_option autoImplicit false
set_option linter.unusedSectionVars false

/-!
# C56: rounding never decides

The code computes similarity scores as `f64`. For pages with up to `2^25` nodes together every comparison of scores
comes out as for exact fractions, so that `diff` gives the same patches.
-/

namespace Hotmeal
namespace F64

/-- **C56**, the rounding of the model is the one of IEEE 754: no integer is closer, and of two that are equally
close the even one is taken. -/
theorem C56_rounds_to_nearest_even (x : ℚ) :
    (∀ n : ℤ, |(roundEven x : ℚ) - x| ≤ |(n : ℚ) - x|) ∧
    ∀ n : ℤ, n ≠ roundEven x → |(n : ℚ) - x| = |(roundEven x : ℚ) - x| → roundEven x % 2 = 0 := by
  have h1 := Int.floor_le x
  have h2 := Int.lt_floor_add_one x
  -- an integer other than the two neighbours is at least 1 away
  have far : ∀ n : ℤ, n ≤ ⌊x⌋ ∨ ⌊x⌋ + 1 ≤ n := by intro n; omega
  have low : ∀ n : ℤ, n ≤ ⌊x⌋ → x - ⌊x⌋ ≤ |(n : ℚ) - x| := by
    intro n hn
    have : (n : ℚ) ≤ ⌊x⌋ := by exact_mod_cast hn
    rw [abs_sub_comm]; exact le_trans (by linarith) (le_abs_self _)
  have high : ∀ n : ℤ, ⌊x⌋ + 1 ≤ n → ⌊x⌋ + 1 - x ≤ |(n : ℚ) - x| := by
    intro n hn
    have : (⌊x⌋ : ℚ) + 1 ≤ n := by exact_mod_cast hn
    exact le_trans (by linarith) (le_abs_self _)
  have a1 : |((⌊x⌋ : ℤ) : ℚ) - x| = x - ⌊x⌋ := by rw [abs_sub_comm]; exact abs_of_nonneg (by linarith)
  have a2 : |((⌊x⌋ + 1 : ℤ) : ℚ) - x| = ⌊x⌋ + 1 - x := by push_cast; exact abs_of_nonneg (by linarith)
  -- an integer at the same distance as a neighbour is a neighbour
  have low' : ∀ n : ℤ, n < ⌊x⌋ → x - ⌊x⌋ + 1 ≤ |(n : ℚ) - x| := by
    intro n hn
    have : (n : ℚ) + 1 ≤ ⌊x⌋ := by exact_mod_cast hn
    rw [abs_sub_comm]; exact le_trans (by linarith) (le_abs_self _)
  have high' : ∀ n : ℤ, ⌊x⌋ + 1 < n → ⌊x⌋ + 2 - x ≤ |(n : ℚ) - x| := by
    intro n hn
    have : (⌊x⌋ : ℚ) + 1 + 1 ≤ n := by exact_mod_cast hn
    exact le_trans (by linarith) (le_abs_self _)
  have tri : ∀ n : ℤ, n < ⌊x⌋ ∨ n = ⌊x⌋ ∨ n = ⌊x⌋ + 1 ∨ ⌊x⌋ + 1 < n := by intro n; omega
  unfold roundEven
  split
  · next h =>
    refine ⟨fun n => ?_, fun n hn he => ?_⟩
    · rw [a1]
      rcases far n with hn | hn
      · exact low n hn
      · have := high n hn; linarith
    · exfalso
      rw [a1] at he
      rcases tri n with hx | hx | hx | hx
      · have := low' n hx; linarith
      · exact hn hx
      · rw [hx, a2] at he; linarith
      · have := high' n hx; linarith
  · next h =>
    split
    · next h' =>
      refine ⟨fun n => ?_, fun n hn he => ?_⟩
      · rw [a2]
        rcases far n with hn | hn
        · have := low n hn; linarith
        · exact high n hn
      · exfalso
        rw [a2] at he
        rcases tri n with hx | hx | hx | hx
        · have := low' n hx; linarith
        · rw [hx, a1] at he; linarith
        · exact hn hx
        · have := high' n hx; linarith
    · next h' =>
      have e : x - ⌊x⌋ = 1 / 2 := by linarith
      split
      · next hm =>
        refine ⟨fun n => ?_, fun _ _ _ => hm⟩
        rw [a1]
        rcases far n with hn | hn
        · exact low n hn
        · have := high n hn; linarith
      · next hm =>
        refine ⟨fun n => ?_, fun _ _ _ => by omega⟩
        rw [a2]
        rcases far n with hn | hn
        · have := low n hn; linarith
        · exact high n hn

/-- Two and a half is rounded to two, three and a half to four. -/
example : roundEven (5 / 2) = 2 ∧ roundEven (7 / 2) = 4 := by
  constructor <;> norm_num [roundEven]

/-- The value of an exact score, rounded. -/
def val (s : Score) : ℚ := rnd ((s.num : ℚ) / s.den)

/-- A score whose comparisons are exact. -/
structure Small (s : Score) : Prop where
  pos : 0 < s.den
  den : s.den ≤ 2 ^ 25
  num : s.num ≤ 2 * s.den

theorem val_gt {s t : Score} (hs : Small s) (ht : Small t) : decide (val t < val s) = s.gt t := by
  have h := rnd_lt_rnd (p := s.num) (q := s.den) (p' := t.num) (q' := t.den) hs.pos ht.pos hs.num ht.num hs.den ht.den
  unfold val Score.gt
  exact decide_eq_decide.2 h

theorem val_half {s : Score} (h0 : 0 < s.den) (h1 : s.den ≤ 2 ^ 52) :
    decide ((1 : ℚ) / 2 ≤ val s) = s.ge ⟨1, 2⟩ := by
  have h := half_le_rnd (p := s.num) (q := s.den) h0 h1
  unfold val Score.ge
  refine decide_eq_decide.2 (h.trans ?_)
  show s.den ≤ 2 * s.num ↔ 1 * s.den ≤ s.num * 2
  omega

theorem similarity_eq {a b : Attrs} (h : a.keySet.length + b.keySet.length ≤ 2 ^ 51) :
    decide ((1 : ℚ) / 2 ≤ similarity a b) = (a.similarity b).ge ⟨1, 2⟩ := by
  have one : decide ((1 : ℚ) / 2 ≤ 1) = Score.ge ⟨1, 1⟩ ⟨1, 2⟩ := by
    have : (1 : ℚ) / 2 ≤ 1 := by norm_num
    rw [decide_eq_true this]; rfl
  unfold similarity Attrs.similarity
  split
  · exact one
  · simp only
    split
    · exact one
    · next hne =>
      have hi : (a.keySet.filter (fun k => k ∈ b.keySet)).length ≤ a.keySet.length := List.length_filter_le _ _
      rw [div_ofNat (by omega) (by omega)]
      exact val_half (s := ⟨2 * (a.keySet.filter (fun k => k ∈ b.keySet)).length, _⟩) (Nat.pos_of_ne_zero hne) (Nat.le_trans h (by decide))

variable {H : Type} [DecidableEq H]

/-- The trees are small enough for exact comparisons. -/
structure SmallTrees (TA TB : DiffTree H) : Prop where
  size : ∀ a ∈ TA.iter, ∀ b ∈ TB.iter, (TA.descendants a).length + (TB.descendants b).length ≤ 2 ^ 25
  attrs : ∀ a ∈ TA.iter, ∀ b, (b ∈ TB.iter ∨ ∃ p, b ∈ TB.children p) → (TA.props a).keySet.length + (TB.props b).keySet.length ≤ 2 ^ 51

variable {TA TB : DiffTree H}

theorem find_eq {α : Type} {p q : α → Bool} {l : List α} (h : ∀ x ∈ l, p x = q x) : l.find? p = l.find? q := by
  induction l with
  | nil => rfl
  | cons x l ih =>
    rw [List.find?_cons, List.find?_cons, h x (by simp), ih fun y hy => h y (by simp [hy])]

theorem SmallTrees.sim (h : SmallTrees TA TB) {a b : Nat} (ha : a ∈ TA.iter) (hb : b ∈ TB.iter ∨ ∃ p, b ∈ TB.children p) :
    decide (Config.diff.threshold ≤ similarity (TA.props a) (TB.props b)) =
      ((TA.props a).similarity (TB.props b)).ge Hotmeal.Config.diff.threshold :=
  similarity_eq (h.attrs a ha b hb)

theorem dice_eq {M : Matching} {a b : Nat} (h : (TA.descendants a).length + (TB.descendants b).length ≤ 2 ^ 25) :
    dice TA TB M a b = val (Hotmeal.dice TA TB M a b) ∧ Small (Hotmeal.dice TA TB M a b) := by
  unfold dice Hotmeal.dice
  simp only
  split
  · refine ⟨?_, by decide, by decide, by decide⟩
    unfold val
    norm_num
    exact rnd_one.symm
  · next hne =>
    have hc := List.length_filter_le (fun x => match M.getB x with
      | none => false
      | some y => decide (y ∈ TB.descendants b)) (TA.descendants a)
    generalize ((TA.descendants a).filter fun x => match M.getB x with
      | none => false
      | some y => decide (y ∈ TB.descendants b)).length = c at hc
    have hpos : 0 < (TA.descendants a).length + (TB.descendants b).length := by
      apply Nat.pos_of_ne_zero
      intro e
      have e1 : TA.descendants a = [] := List.length_eq_zero_iff.1 (by omega)
      have e2 : TB.descendants b = [] := List.length_eq_zero_iff.1 (by omega)
      rw [e1, e2] at hne
      exact hne rfl
    refine ⟨?_, hpos, h, by simp only; omega⟩
    have e1 : mul 2 (ofNat c) = ofNat (2 * c) := by
      unfold mul
      rw [ofNat_eq (n := c) (by omega)]
      unfold ofNat
      push_cast
      rfl
    rw [e1, div_ofNat (by omega) (by omega)]
    rfl

/-- The best candidate found by both versions of the Dice loop. -/
def BestRel : Option (Nat × ℚ) → Option (Nat × Score) → Prop
  | none, none => True
  | some (b, x), some (b', s) => b = b' ∧ x = val s ∧ Small s
  | _, _ => False

theorem diceBest_eq (h : SmallTrees TA TB) {M : Matching} {a : Nat} (ha : a ∈ TA.iter) (bs : List Nat) :
    (∀ b ∈ bs, b ∈ TB.iter) → ∀ bq be, BestRel bq be →
      BestRel (diceBest TA TB Config.diff M a bs bq) (Hotmeal.diceBest TA TB Hotmeal.Config.diff M a bs be) := by
  induction bs with
  | nil => intro _ bq be hr; exact hr
  | cons b bs ih =>
    intro hb bq be hr
    have ih := ih fun b' hb' => hb b' (by simp [hb'])
    obtain ⟨hd, hsm⟩ := dice_eq (M := M) (h.size a ha b (hb b (by simp)))
    have hs' := h.sim ha (.inl (hb b (by simp)))
    have hh : decide (Config.diff.threshold ≤ dice TA TB M a b) =
        (Hotmeal.dice TA TB M a b).ge Hotmeal.Config.diff.threshold := by
      rw [hd]
      exact val_half hsm.pos (Nat.le_trans hsm.den (by decide))
    unfold diceBest Hotmeal.diceBest
    simp only [hs', hh]
    split
    · exact ih _ _ hr
    · split
      · exact ih _ _ hr
      · split
        · exact ih _ _ hr
        · split
          · exact ih _ _ hr
          · cases bq with
            | none =>
              cases be with
              | none =>
                simp only
                split
                · exact ih _ _ ⟨rfl, hd, hsm⟩
                · exact ih _ _ hr
              | some e => exact absurd hr (by simp [BestRel])
            | some x =>
              cases be with
              | none => exact absurd hr (by simp [BestRel])
              | some e =>
                have hg : decide (x.2 < dice TA TB M a b) = (Hotmeal.dice TA TB M a b).gt e.2 := by
                  rw [hr.2.1, hd]
                  exact val_gt hsm hr.2.2
                simp only [hg]
                split
                · exact ih _ _ ⟨rfl, hd, hsm⟩
                · exact ih _ _ hr

theorem bByKind_mem {M0 : Matching} {o : List Nat} {k : HKind} {b : Nat} (h : b ∈ bByKind TB M0 o k) : b ∈ TB.iter :=
  (List.mem_filter.1 h).1

theorem pass1Position_eq (h : SmallTrees TA TB) (M : Matching) {a : Nat} (ha : a ∈ TA.iter) (pb : Nat) :
    pass1Position TA TB Config.diff M a pb = Hotmeal.pass1Position TA TB Hotmeal.Config.diff M a pb := by
  unfold pass1Position Hotmeal.pass1Position
  refine find_eq fun b hb => ?_
  congr 1
  exact h.sim ha (.inr ⟨pb, (List.mem_filter.1 hb).1⟩)

theorem pass1Dice_eq (h : SmallTrees TA TB) {M0 : Matching} {o : List Nat} (M : Matching) {a : Nat} (ha : a ∈ TA.iter) :
    pass1Dice TA TB Config.diff (bByKind TB M0 o) M a =
      Hotmeal.pass1Dice TA TB Hotmeal.Config.diff (bByKind TB M0 o) M a := by
  have hb := diceBest_eq h (M := M) ha (bByKind TB M0 o (TA.kind a)) (fun b hb => bByKind_mem hb) none none trivial
  unfold pass1Dice Hotmeal.pass1Dice
  generalize diceBest TA TB Config.diff M a (bByKind TB M0 o (TA.kind a)) none = bq at hb ⊢
  generalize Hotmeal.diceBest TA TB Hotmeal.Config.diff M a (bByKind TB M0 o (TA.kind a)) none = be at hb ⊢
  cases bq with
  | none =>
    cases be with
    | none =>
      simp only
      split
      · have hf := find_eq (l := bByKind TB M0 o (TA.kind a))
          (p := fun b => !M.containsB b && decide (0 < TB.childCount b) && (TB.parent b).isNone &&
            decide (Config.diff.threshold ≤ similarity (TA.props a) (TB.props b)))
          (q := fun b => !M.containsB b && decide (0 < TB.childCount b) && (TB.parent b).isNone &&
            ((TA.props a).similarity (TB.props b)).ge Hotmeal.Config.diff.threshold)
          fun b hb' => by simp only [h.sim ha (.inl (bByKind_mem hb'))]
        rw [hf]
        rfl
      · rfl
    | some e => exact absurd hb (by simp [BestRel])
  | some x =>
    cases be with
    | none => exact absurd hb (by simp [BestRel])
    | some e =>
      obtain ⟨h1, _⟩ := hb
      simp only [h1]

theorem pass1Step_eq (h : SmallTrees TA TB) {M0 : Matching} {o oA : List Nat} (M : Matching) {a : Nat} (ha : a ∈ TA.iter) :
    pass1Step TA TB Config.diff oA (bByKind TB M0 o) M a =
      Hotmeal.pass1Step TA TB Hotmeal.Config.diff oA (bByKind TB M0 o) M a := by
  unfold pass1Step Hotmeal.pass1Step
  simp only [pass1Position_eq h M ha, pass1Dice_eq h M ha]
  rfl

theorem pass2Local_eq (h : SmallTrees TA TB) (M : Matching) {a : Nat} (ha : a ∈ TA.iter) (pb : Nat) :
    pass2Local TA TB Config.diff M a pb = Hotmeal.pass2Local TA TB Hotmeal.Config.diff M a pb := by
  unfold pass2Local Hotmeal.pass2Local
  simp only
  rw [find_eq (p := fun b => TB.position b == TA.position a &&
      decide (Config.diff.threshold ≤ similarity (TA.props a) (TB.props b)))
    (q := fun b => TB.position b == TA.position a &&
      ((TA.props a).similarity (TB.props b)).ge Hotmeal.Config.diff.threshold) fun b hb => ?_]
  congr 1
  exact h.sim ha (.inr ⟨pb, (List.mem_filter.1 hb).1⟩)

theorem pass2Global_eq (h : SmallTrees TA TB) (M : Matching) {a : Nat} (ha : a ∈ TA.iter) (bs : List Nat) :
    (∀ b ∈ bs, b ∈ TB.iter) → ∀ best,
      pass2Global TA TB Config.diff M a bs best = Hotmeal.pass2Global TA TB Hotmeal.Config.diff M a bs best := by
  induction bs with
  | nil => intro _ best; rfl
  | cons b bs ih =>
    intro hb best
    have hs' := h.sim ha (.inl (hb b (by simp)))
    unfold pass2Global Hotmeal.pass2Global
    simp only [ih fun b' hb' => hb b' (by simp [hb']), hs']

theorem pass2Step_eq (h : SmallTrees TA TB) {M0 : Matching} {o oA : List Nat} (M : Matching) {a : Nat} (ha : a ∈ TA.iter) :
    pass2Step TA TB Config.diff oA (bByKind TB M0 o) M a =
      Hotmeal.pass2Step TA TB Hotmeal.Config.diff oA (bByKind TB M0 o) M a := by
  unfold pass2Step Hotmeal.pass2Step
  simp only [pass2Local_eq h M ha, pass2Global_eq h M ha _ fun b hb => bByKind_mem hb]
  rfl

theorem foldl_eq {α β : Type} {f g : β → α → β} (l : List α) (h : ∀ b, ∀ a ∈ l, f b a = g b a) (b : β) :
    l.foldl f b = l.foldl g b := by
  induction l generalizing b with
  | nil => rfl
  | cons a l ih =>
    rw [List.foldl_cons, List.foldl_cons, h b a (by simp), ih fun b a ha => h b a (by simp [ha])]

/-- **C56.** The matching computed with doubles is the one computed with exact fractions. -/
theorem C56_matching_is_exact (h : SmallTrees TA TB) :
    computeMatching TA TB Config.diff = Hotmeal.computeMatching TA TB Hotmeal.Config.diff := by
  unfold computeMatching Hotmeal.computeMatching bottomUp Hotmeal.bottomUp
  simp only
  have e : (⟨⟨1, 2⟩, Config.diff.minHeight⟩ : Hotmeal.Config) = Hotmeal.Config.diff := rfl
  rw [e]
  rw [foldl_eq TA.iter fun M a ha => pass1Step_eq h M ha, foldl_eq TA.iter fun M a ha => pass2Step_eq h M ha]

theorem keySet_le (a : Attrs) : a.keySet.length ≤ a.length := by
  unfold Attrs.keySet Attrs.keys
  refine Nat.le_trans (nodup_length_le (m := a.map Prod.fst) (eraseDups_nodup _) fun x hx => ?_) (by rw [List.length_map])
  exact List.mem_eraseDups.1 hx

/-- No element of the document has more than `2^50` attributes. -/
def FewAttrs (D : Document) : Prop :=
  ∀ n tag attrs, n < D.arena.next → (D.arena.data n).kind = .element tag attrs → attrs.length ≤ 2 ^ 50

theorem FewAttrs.tdata {D : Document} (h : FewAttrs D) {n : Nat} (hn : n < D.arena.next) :
    (tdataOf (D.arena.data n)).props.length ≤ 2 ^ 50 := by
  cases ek : (D.arena.data n).kind with
  | element tag attrs => simp only [tdataOf, ek]; exact h n tag attrs hn ek
  | _ => simp [tdataOf, ek]

variable {hashNode : HKind → Option Str → List H → H} {old new : Document}

theorem small_trees (hold : old.Sound) (hnew : new.Sound) {ob nb : Nat} (ho : old.body = some ob)
    (hn : new.body = some nb) (hs : old.size + new.size ≤ 2 ^ 25) (h1 : FewAttrs old) (h2 : FewAttrs new) :
    SmallTrees (oldTree hashNode old ob) (newTree hashNode new nb) := by
  have hw := hnew.arena.wf
  obtain ⟨g, hb⟩ := buildTree_spec old hold.arena.leafy ob
  have hBw := Built.diffable_wf hw
  have hso : ((buildTree old ob).descendants 0).length = old.size := by
    unfold Document.size
    rw [ho]
    show _ = (old.arena.descendants ob).length
    have := hb.descendants hold.arena.wf 0 hb.pos
    rw [hb.g0] at this
    rw [this, List.length_map]
  have hsn : ((diffable new).descendants nb).length = new.size := by
    unfold Document.size
    rw [hn, diffable_descendants hw hBw]
  have hnb : nb < new.arena.next := (hw.lt_of_parent _ _ ((hw.mem_iff _ _).1 (Document.body_spec hn).1)).1
  have lt_of_anc : ∀ {r n : Nat}, r < (diffable new).next → (diffable new).Anc r n → n < (diffable new).next := by
    intro r n hr ha
    rcases ha.cases' with e | ⟨q, hq, _⟩
    · rw [← e]; exact hr
    · exact (hBw.lt_of_parent _ _ hq).1
  constructor
  · intro a ha b hb'
    have ha' := (hb.wf.mem_descendants 0 a).1 ha
    have hb'' := (hBw.mem_descendants nb b).1 hb'
    have e1 : (((buildTree old ob).descendants a)).length ≤ old.size := by
      rw [← hso]; exact (hb.wf.descendants_sublist ha').length_le
    have e2 : (((diffable new).descendants b)).length ≤ new.size := by
      rw [← hsn]; exact (hBw.descendants_sublist hb'').length_le
    show ((buildTree old ob).descendants a).length + ((diffable new).descendants b).length ≤ _
    omega
  · intro a ha b hb'
    have ha' := (hb.wf.mem_descendants 0 a).1 ha
    have hblt : b < new.arena.next := by
      rcases hb' with hb' | ⟨p, hp⟩
      · exact lt_of_anc (r := nb) hnb ((hBw.mem_descendants nb b).1 hb')
      · exact (hBw.lt_of_parent _ _ ((hBw.mem_iff _ _).1 hp)).1
    have e1 : ((buildTree old ob).data a).props.length ≤ 2 ^ 50 := by
      rcases ha'.cases' with e | ⟨q, hq, _⟩
      · rw [← e, hb.rdata]; exact Nat.zero_le _
      · have hlt := (hb.wf.lt_of_parent _ _ hq).1
        by_cases h0 : a = 0
        · rw [h0, hb.rdata]; exact Nat.zero_le _
        · rw [hb.data a hlt h0]
          obtain ⟨q', hq'⟩ := hb.par a hlt h0
          exact h1.tdata (hold.arena.wf.lt_of_parent _ _ hq').1
    have e2 : ((diffable new).data b).props.length ≤ 2 ^ 50 := h2.tdata hblt
    have k1 := keySet_le ((buildTree old ob).data a).props
    have k2 := keySet_le ((diffable new).data b).props
    show (((buildTree old ob).data a).props).keySet.length + (((diffable new).data b).props).keySet.length ≤ _
    omega

/-- **C56.** For two pages with up to `2^25` (33 million) nodes together, `diff` computed with doubles gives the same
patches as `diff` computed with exact fractions, about which all other theorems are. -/
theorem C56_diff_is_exact (hold : old.Sound) (hnew : new.Sound) (hs : old.size + new.size ≤ 2 ^ 25)
    (h1 : FewAttrs old) (h2 : FewAttrs new) : diff hashNode old new = Hotmeal.diff hashNode old new := by
  unfold diff Hotmeal.diff
  cases ho : old.body with
  | none => cases new.body <;> rfl
  | some ob =>
    cases hn : new.body with
    | none => rfl
    | some nb =>
      simp only [diffMatching, C56_matching_is_exact (small_trees hold hnew ho hn hs h1 h2)]

/-- Two small pages meet the hypotheses, and their difference is not empty. -/
example : (Document.ofForest sections1).Sound ∧ (Document.ofForest sections2).Sound ∧
    (Document.ofForest sections1).size + (Document.ofForest sections2).size ≤ 2 ^ 25 ∧
    FewAttrs (.ofForest sections1) ∧ FewAttrs (.ofForest sections2) ∧
    (match Hotmeal.diff Shape.node (.ofForest sections1) (.ofForest sections2) with
      | .ok ps => decide (0 < ps.length) | .error _ => false) = true := by
  have few : ∀ D : Document, (∀ n < D.arena.next, match (D.arena.data n).kind with
      | .element _ attrs => attrs.length ≤ 5 | _ => True) → FewAttrs D := by
    intro D h n tag attrs hn e
    have := h n hn
    rw [e] at this
    exact Nat.le_trans this (by omega)
  refine ⟨ofForest_sound _ (by decide +kernel), ofForest_sound _ (by decide +kernel), ?_,
    few _ ?_, few _ ?_, by decide +kernel⟩
  · have : (Document.ofForest sections1).size + (Document.ofForest sections2).size ≤ 50 := by decide +kernel
    exact Nat.le_trans this (by omega)
  · have : ((List.range (Document.ofForest sections1).arena.next).all fun n =>
        match ((Document.ofForest sections1).arena.data n).kind with
          | .element _ attrs => decide (attrs.length ≤ 5) | _ => true) = true := by decide +kernel
    intro n hn
    have h := List.all_eq_true.1 this n (List.mem_range.2 hn)
    revert h
    cases ((Document.ofForest sections1).arena.data n).kind <;> simp
  · have : ((List.range (Document.ofForest sections2).arena.next).all fun n =>
        match ((Document.ofForest sections2).arena.data n).kind with
          | .element _ attrs => decide (attrs.length ≤ 5) | _ => true) = true := by decide +kernel
    intro n hn
    have h := List.all_eq_true.1 this n (List.mem_range.2 hn)
    revert h
    cases ((Document.ofForest sections2).arena.data n).kind <;> simp

end F64
end Hotmeal
