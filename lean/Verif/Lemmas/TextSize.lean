import Verif.Lemmas.BuildTree
import Verif.Lemmas.ReadTree
import Verif.Props.Traffic

set_option autoImplicit false
set_option linter.unusedSectionVars false

/-!
# A page has no more nodes than its text has characters
-/

namespace Hotmeal

open Reader

theorem length_escText (s : Str) : s.length ≤ (escText s).length := by
  unfold escText
  induction s with
  | nil => exact Nat.zero_le _
  | cons c s ih =>
    rw [List.flatMap_cons, List.length_append, List.length_cons]
    have : 1 ≤ (escTextChar c).length := by
      unfold escTextChar
      split
      · decide
      · split
        · decide
        · exact Nat.le_refl _
    omega

theorem length_ser_text {s : Str} (raw : Bool) (h : s ≠ []) : 1 ≤ ((Html.text s).ser raw).length := by
  have h1 : 1 ≤ s.length := List.length_pos_iff.2 h
  unfold Html.ser
  split
  · exact h1
  · exact Nat.le_trans h1 (length_escText s)

theorem readable_of_mem (l : List Html) (st : List Str) : Html.readableL st l = true → ∀ x ∈ l, x.readable st = true := by
  induction l with
  | nil => intro _ x hx; cases hx
  | cons y l ihl =>
    intro hl x hx
    simp only [Html.readableL, Bool.and_eq_true] at hl
    rcases List.mem_cons.1 hx with rfl | hx
    · exact hl.1
    · exact ihl hl.2 x hx

theorem Arena.WF.descendants_sum {A : Arena NodeData} {raw : Bool} : ∀ (l : List Nat),
    (∀ c ∈ l, (A.descendants c).length ≤ ((A.tree c).ser raw).length) →
    ((l.map A.descendants).flatten).length ≤ (Html.serL raw (l.map A.tree)).length
  | [], _ => Nat.zero_le _
  | c :: l, h => by
    have h1 := h c (by simp)
    have h2 := descendants_sum l fun x hx => h x (by simp [hx])
    simp only [List.map_cons, List.flatten_cons, List.length_append, Html.serL]
    omega

theorem Leafy.descendants_text {A : Arena NodeData} (hA : Leafy A) {n : Nat} {s : Str} (e : A.tree n = .text s) :
    A.descendants n = [n] := by
  rw [hA.wf.tree_eq] at e
  rw [hA.wf.descendants_eq, hA.leaf n]
  · rfl
  · cases hk : (A.data n).kind with
    | text t => exact .inl ⟨t, rfl⟩
    | comment t => exact .inr ⟨t, rfl⟩
    | document => rw [hk] at e; cases e
    | element tag as => rw [hk] at e; cases e

/-- The nodes of a subtree whose text can be read. -/
theorem Leafy.descendants_le {A : Arena NodeData} (hA : Leafy A) : ∀ (t : Html) (n : Nat) (stack : List Str) (raw : Bool),
    A.tree n = t → t.readable stack = true → (A.descendants n).length ≤ (t.ser raw).length := by
  intro t
  have hw := hA.wf
  refine Html.ind (P := fun t => ∀ (n : Nat) (stack : List Str) (raw : Bool),
    A.tree n = t → t.readable stack = true → (A.descendants n).length ≤ (t.ser raw).length) ?_ ?_ ?_ ?_ t
  · intro n stack raw _ h; cases h
  · intro tag as cs ih n stack raw e h
    have hcs : cs = (A.children n).map A.tree := by
      rw [hw.tree_eq] at e
      cases hk : (A.data n).kind with
      | element tag' as' =>
        rw [hk] at e
        simp only [Html.ofKind, Html.element.injEq] at e
        exact e.2.2.symm
      | text t => rw [hk] at e; cases e
      | comment t => rw [hk] at e; cases e
      | document => rw [hk] at e; cases e
    rw [hw.descendants_eq, List.length_cons]
    unfold Html.readable at h
    simp only [Bool.and_eq_true] at h
    obtain ⟨_, h⟩ := h
    unfold Html.ser
    rw [void_iff]
    simp only [List.length_append, List.length_cons]
    by_cases hv : voidTags.contains tag = true
    · rw [if_pos hv] at h
      have : A.children n = [] := by
        have := List.isEmpty_iff.1 h
        rw [hcs, List.map_eq_nil_iff] at this
        exact this
      rw [this]
      simp only [List.map_nil, List.flatten_nil, List.length_nil]
      omega
    · rw [if_neg hv] at h ⊢
      simp only [List.length_append]
      have key : ((A.children n).map A.descendants).flatten.length ≤ (Html.serL (isRawText tag) cs).length := by
        rw [hcs]
        refine Arena.WF.descendants_sum _ fun c hc => ?_
        have hmem : A.tree c ∈ cs := by rw [hcs]; exact List.mem_map_of_mem hc
        split at h
        · unfold Html.okRawKids at h
          split at h
          · cases hmem
          · next s =>
            simp only [Bool.and_eq_true, Bool.not_eq_true'] at h
            rw [List.mem_singleton] at hmem
            rw [hA.descendants_text hmem, hmem]
            refine length_ser_text _ ?_
            rintro rfl
            exact absurd h.1.1 (by decide)
          · cases h
        · simp only [Bool.and_eq_true] at h
          exact ih _ hmem c _ _ rfl (readable_of_mem _ _ h.2 _ hmem)
      omega
  · intro s n stack raw e h
    rw [hA.descendants_text e]
    refine length_ser_text raw ?_
    rintro rfl
    simp only [Html.readable, Bool.and_eq_true] at h
    exact absurd h.1.1 (by decide)
  · intro s n stack raw e h
    have : A.descendants n = [n] := by
      rw [hw.tree_eq] at e
      rw [hw.descendants_eq, hA.leaf n]
      · rfl
      · cases hk : (A.data n).kind with
        | text t => exact .inl ⟨t, rfl⟩
        | comment t => exact .inr ⟨t, rfl⟩
        | document => rw [hk] at e; cases e
        | element tag as => rw [hk] at e; cases e
    rw [this]
    unfold Html.ser
    simp only [List.length_append, List.length_singleton]
    have : 1 ≤ "<!--".toList.length := by decide
    omega

end Hotmeal
