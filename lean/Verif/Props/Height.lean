import Verif.Props.RoundTrip

set_option autoImplicit false
set_option linter.unusedSectionVars false

/-!
# C40: the height of a node
-/

namespace Hotmeal
namespace Arena

variable {A : Arena TData}

/-- There is a way of `k` steps from the node down. -/
inductive Way (A : Arena TData) : Nat → Nat → Prop
  | here (n : Nat) : Way A n 0
  | down {n c k : Nat} (h : A.parent c = some n) (w : Way A c k) : Way A n (k + 1)

theorem le_foldl_max (l : List Nat) : ∀ m, m ≤ l.foldl max m ∧ (∀ x ∈ l, x ≤ l.foldl max m) ∧
    (l.foldl max m = m ∨ l.foldl max m ∈ l) := by
  induction l with
  | nil => intro m; simp
  | cons x l ih =>
    intro m
    obtain ⟨h1, h2, h3⟩ := ih (max m x)
    rw [List.foldl_cons]
    refine ⟨by omega, ?_, ?_⟩
    · intro y hy
      rcases List.mem_cons.1 hy with rfl | hy
      · omega
      · exact h2 y hy
    · rcases h3 with h3 | h3
      · rw [h3]
        by_cases h : x ≤ m
        · left; omega
        · right; rw [Nat.max_eq_right (by omega)]; simp
      · right; simp [h3]

/-- **C40**: the height of a node is the length of the longest way down. -/
theorem C40_height {H : Type} (hashNode : HKind → Option Str → List H → H) (hA : A.WF) (r n : Nat) :
    Way A n ((DiffTree.ofArena hashNode A r).height n) ∧
    ∀ k, Way A n k → k ≤ (DiffTree.ofArena hashNode A r).height n := by
  show Way A n (A.fold DiffTree.heightAlg n) ∧ ∀ k, Way A n k → k ≤ A.fold DiffTree.heightAlg n
  refine hA.induct_down (P := fun n => Way A n (A.fold DiffTree.heightAlg n) ∧ ∀ k, Way A n k → k ≤ A.fold DiffTree.heightAlg n) ?_ n
  intro n ih
  rw [hA.fold_eq]
  cases hc : A.children n with
  | nil =>
    refine ⟨.here n, ?_⟩
    intro k w
    cases w with
    | here => exact Nat.zero_le _
    | down h _ =>
      have := (hA.mem_iff _ _).2 h
      rw [hc] at this
      cases this
  | cons c cs =>
    obtain ⟨_, h2, h3⟩ := le_foldl_max ((c :: cs).map (A.fold DiffTree.heightAlg)) 0
    simp only [DiffTree.heightAlg, List.map_cons, List.isEmpty_cons, Bool.false_eq_true, if_false]
    rw [List.map_cons] at h2 h3
    generalize hm : (A.fold DiffTree.heightAlg c :: cs.map (A.fold DiffTree.heightAlg)).foldl max 0 = m at h2 h3
    constructor
    · have hin : m ∈ (c :: cs).map (A.fold DiffTree.heightAlg) := by
        rcases h3 with h3 | h3
        · have := h2 (A.fold DiffTree.heightAlg c) (by simp)
          rw [List.map_cons, h3, show A.fold DiffTree.heightAlg c = 0 by omega]
          simp
        · exact h3
      obtain ⟨d, hd, e⟩ := List.mem_map.1 hin
      have w := (ih d (by rw [hc]; exact hd)).1
      rw [e] at w
      rw [Nat.add_comm]
      exact .down ((hA.mem_iff _ _).1 (by rw [hc]; exact hd)) w
    · intro k w
      cases w with
      | here => exact Nat.zero_le _
      | @down _ d k h w =>
        have hd := (hA.mem_iff _ _).2 h
        have h4 := (ih d hd).2 k w
        rw [hc] at hd
        have h5 := h2 (A.fold DiffTree.heightAlg d) (by rw [← List.map_cons]; exact List.mem_map_of_mem hd)
        omega

/-- A tree of height 4. -/
example : (newTree Shape.node (.ofForest ex2) 2).height 2 = 4 ∧ (diffable (.ofForest ex2)).parent 4 = some 2 := by
  decide +kernel

end Arena
end Hotmeal
