import Verif.Model.Diff
import Verif.Lemmas.ArenaOps

/-!
# Paths in the shadow tree
-/

namespace Hotmeal
namespace Shadow

/-- A child of the super root. -/
abbrev IsSlot (S : Shadow) (n : Nat) : Prop := S.arena.parent n = some S.superRoot

/-- The path of a node: slot index of its root, then child indices. -/
inductive IsPath (S : Shadow) : Nat → Path → Prop
  | base {n p : Nat} (hp : S.arena.parent n = some p) (hs : S.IsSlot p) :
      IsPath S n [Arena.posIn (S.arena.children S.superRoot) p]
  | step {n p : Nat} {q : Path} (hp : S.arena.parent n = some p) (hs : ¬ S.IsSlot p)
      (h : IsPath S p q) : IsPath S n (q ++ [Arena.posIn (S.arena.children p) n])

theorem IsPath.pathLoop_eq {S : Shadow} {n : Nat} {q : Path} (h : S.IsPath n q) :
    ∀ (k : Nat) (acc : Path), q.length ≤ k → S.pathLoop k n acc = q ++ acc := by
  induction h with
  | base hp hs =>
    intro k acc hk
    cases k with
    | zero => simp at hk
    | succ k =>
      simp only [pathLoop, hp]
      rw [if_pos hs]; rfl
  | @step n p q hp hs _ ih =>
    intro k acc hk
    cases k with
    | zero => simp at hk
    | succ k =>
      simp only [pathLoop, hp]
      rw [if_neg hs, ih _ _ (by simpa using hk)]
      simp

theorem IsPath.length_le {S : Shadow} {r : Nat → Nat}
    (hr : ∀ c p, S.arena.parent c = some p → r p < r c) {n : Nat} {q : Path} (h : S.IsPath n q) :
    q.length ≤ r n := by
  induction h with
  | base hp _ => have := hr _ _ hp; simp; omega
  | step hp _ _ ih => have := hr _ _ hp; simp; omega

theorem IsPath.lt {S : Shadow} (hw : S.arena.WF) {n : Nat} {q : Path} (h : S.IsPath n q) :
    n < S.arena.next := by
  cases h with
  | base hp _ => exact (hw.lt_of_parent _ _ hp).1
  | step hp _ _ => exact (hw.lt_of_parent _ _ hp).1

theorem IsPath.computePath_eq {S : Shadow} (hw : S.arena.WF) {n : Nat} {q : Path}
    (h : S.IsPath n q) : S.computePath n = q := by
  obtain ⟨r, hr1, hr2⟩ := hw.bounded
  have := h.length_le hr2
  have := hr1 n (h.lt hw)
  rw [computePath, h.pathLoop_eq _ _ (by omega), List.append_nil]

/-- Nodes closed under taking parents, up to the slots, have paths. -/
theorem exists_isPath {S : Shadow} (hw : S.arena.WF) {N : Nat → Prop}
    (hN : ∀ n, N n → ∃ p, S.arena.parent n = some p ∧ (N p ∨ S.IsSlot p))
    (n : Nat) (hn : N n) : S.IsPath n (S.computePath n) := by
  suffices ∃ q, S.IsPath n q by
    obtain ⟨q, hq⟩ := this
    rwa [hq.computePath_eq hw]
  revert hn
  refine hw.induct_up (P := fun n => N n → ∃ q, S.IsPath n q) ?_ n
  intro n ih hn
  obtain ⟨p, hp, h⟩ := hN n hn
  by_cases hs : S.IsSlot p
  · exact ⟨_, .base hp hs⟩
  · rcases h with h | h
    · obtain ⟨q, hq⟩ := ih p hp h
      exact ⟨_, .step hp hs hq⟩
    · exact absurd h hs

theorem posIn_append {l r : List Nat} {x : Nat} (h : x ∈ l) :
    Arena.posIn (l ++ r) x = Arena.posIn l x := by
  simp [Arena.posIn, h, List.idxOf_append]

/-- A path only depends on the links above the node. -/
theorem IsPath.congr {S S' : Shadow} (hsup : S'.superRoot = S.superRoot) {n : Nat} {q : Path}
    (h : S.IsPath n q) :
    (∀ m p, S.arena.Anc m n → S.arena.parent m = some p → S'.arena.parent m = some p ∧
      (S'.arena.parent p = some S.superRoot ↔ S.arena.parent p = some S.superRoot) ∧
      Arena.posIn (S'.arena.children p) m = Arena.posIn (S.arena.children p) m) →
    S'.IsPath n q := by
  induction h with
  | @base n p hp hs =>
    intro hc
    obtain ⟨h1, _, _⟩ := hc _ _ .refl hp
    obtain ⟨h2, _, h3⟩ := hc p _ (.step hp .refl) hs
    rw [← h3, ← hsup]
    exact .base h1 (by rw [IsSlot, hsup]; exact h2)
  | @step n p q hp hs _ ih =>
    intro hc
    obtain ⟨h1, h2, h3⟩ := hc _ _ .refl hp
    rw [← h3]
    refine .step h1 (by rw [IsSlot, hsup, h2]; exact hs) (ih ?_)
    intro m p' ha
    exact hc m p' (.step hp ha)

end Shadow
end Hotmeal
