import Verif.Lemmas.Traverse
import Verif.Lemmas.Content
import Verif.Model.Diff

set_option autoImplicit false
set_option linter.unusedSectionVars false

/-!
# Nodes inside opaque elements
-/

namespace Hotmeal

/-- `n` lies strictly inside an opaque node of the tree rooted at `r`. -/
def InsideOpaque (A : Arena TData) (r n : Nat) : Prop :=
  ∃ o, A.Anc r o ∧ (A.data o).props.isOpaque = true ∧ A.Anc o n ∧ n ≠ o

section

variable {H : Type} [DecidableEq H]

theorem mem_opaqueDescendants (hashNode : HKind → Option Str → List H → H) (A : Arena TData)
    (ra : Nat) (hA : A.WF) (n : Nat) :
    n ∈ opaqueDescendants (DiffTree.ofArena hashNode A ra) ↔ InsideOpaque A ra n := by
  unfold opaqueDescendants
  rw [List.mem_flatMap]
  constructor
  · rintro ⟨o, ho, hn⟩
    split at hn
    · next hop =>
      simp only [List.mem_filter, bne_iff_ne, ne_eq] at hn
      exact ⟨o, (hA.mem_descendants _ _).1 ho, hop, (hA.mem_descendants _ _).1 hn.1, hn.2⟩
    · cases hn
  · rintro ⟨o, h1, h2, h3, h4⟩
    refine ⟨o, (hA.mem_descendants _ _).2 h1, ?_⟩
    rw [if_pos (show (DiffTree.ofArena hashNode A ra).isOpaque o = true from h2), List.mem_filter]
    exact ⟨(hA.mem_descendants _ _).2 h3, by simpa using h4⟩

end

namespace InsideOpaque

variable {A : Arena TData} {r n p : Nat}

theorem not_root (hA : A.WF) : ¬ InsideOpaque A r r := by
  rintro ⟨o, h1, _, h3, h4⟩
  exact h4 (hA.anc_antisymm h1 h3)

theorem of_parent (hA : A.WF) (hp : A.parent n = some p) (h : InsideOpaque A r p) :
    InsideOpaque A r n := by
  obtain ⟨o, h1, h2, h3, h4⟩ := h
  refine ⟨o, h1, h2, .step hp h3, ?_⟩
  rintro rfl
  exact hA.self_parent_ne hp (hA.anc_antisymm (.step hp .refl) h3)

theorem of_opaque (hA : A.WF) (hp : A.parent n = some p) (hr : A.Anc r p)
    (ho : (A.data p).props.isOpaque = true) : InsideOpaque A r n :=
  ⟨p, hr, ho, .step hp .refl, fun e => hA.self_parent_ne hp e.symm⟩

/-- A node is inside an opaque node if its parent is or if its parent is opaque. -/
theorem parent_iff (hA : A.WF) (hp : A.parent n = some p) (hr : A.Anc r p) :
    InsideOpaque A r n ↔ InsideOpaque A r p ∨ (A.data p).props.isOpaque = true := by
  constructor
  · rintro ⟨o, h1, h2, h3, h4⟩
    rcases h3.cases' with e | ⟨q, hq, h3⟩
    · exact absurd e.symm h4
    · rw [hp] at hq; cases hq
      by_cases e : p = o
      · subst e; exact .inr h2
      · exact .inl ⟨o, h1, h2, h3, e⟩
  · rintro (h | h)
    · exact of_parent hA hp h
    · exact of_opaque hA hp hr h

end InsideOpaque

/-- Only the nodes strictly below `b` matter for its extracted content. -/
theorem extractChildren_congr {B : Arena TData} (hB : B.WF) {skip skip' : Nat → Bool} {b : Nat}
    (h : ∀ c, B.Anc b c → c ≠ b → skip c = skip' c) :
    extractChildren B skip b = extractChildren B skip' b := by
  have key : ∀ n, (∀ c, B.Anc n c → skip c = skip' c) →
      B.fold (extractAlg B skip) n = B.fold (extractAlg B skip') n := by
    intro n
    refine hB.induct_down (P := fun n => (∀ c, B.Anc n c → skip c = skip' c) →
      B.fold (extractAlg B skip) n = B.fold (extractAlg B skip') n) ?_ n
    intro n ih hn
    rw [hB.fold_eq, hB.fold_eq, extractAlg, extractAlg, hn n .refl]
    have e : (B.children n).map (B.fold (extractAlg B skip)) =
        (B.children n).map (B.fold (extractAlg B skip')) := by
      apply List.map_congr_left
      intro c hc
      exact ih c hc fun d hd => hn d
        (Arena.Anc.trans (.step ((hB.mem_iff _ _).1 hc) .refl) hd)
    rw [e]
  unfold extractChildren
  have : ∀ l : List Nat, (∀ c ∈ l, c ∈ B.children b) → l.filterMap (B.fold (extractAlg B skip)) =
      l.filterMap (B.fold (extractAlg B skip')) := by
    intro l
    induction l with
    | nil => intro _; rfl
    | cons c l ih =>
      intro hl
      have hc := (hB.mem_iff _ _).1 (hl c (by simp))
      rw [List.filterMap_cons, List.filterMap_cons, ih fun d hd => hl d (by simp [hd]), key c]
      intro d hd
      have h1 : B.Anc b c := .step hc .refl
      refine h d (Arena.Anc.trans h1 hd) ?_
      rintro rfl
      exact hB.self_parent_ne hc (hB.anc_antisymm h1 hd)
  exact this _ fun _ h => h

end Hotmeal
