import Verif.Lemmas.ArenaOps
import Verif.Props.Attrs

set_option autoImplicit false

/-!
# Traversals
-/

namespace Hotmeal
namespace Arena

variable {α : Type}

theorem WF.descendants_flatMap {A : Arena α} (h : A.WF) (n : Nat) :
    A.descendants n = n :: (A.children n).flatMap A.descendants := by
  rw [h.descendants_eq, List.flatMap_def]

/-- Induction from children to parents, in terms of parents. -/
theorem WF.induct_down' {A : Arena α} (h : A.WF) {P : Nat → Prop}
    (step : ∀ n, (∀ c, A.parent c = some n → P c) → P n) (n : Nat) : P n :=
  h.induct_down (fun n ih => step n fun c hc => ih c ((h.mem_iff _ _).2 hc)) n

theorem anc_total {A : Arena α} {a b x : Nat} (ha : A.Anc a x) (hb : A.Anc b x) :
    A.Anc a b ∨ A.Anc b a := by
  induction ha with
  | refl => exact .inr hb
  | @step n p hn ha' ih =>
    rcases hb.cases' with e | ⟨q, hq, hb'⟩
    · subst e; exact .inl (.step hn ha')
    · rw [hn] at hq; cases hq; exact ih hb'

theorem WF.mem_descendants {A : Arena α} (h : A.WF) (n m : Nat) :
    m ∈ A.descendants n ↔ A.Anc n m := by
  revert m
  refine h.induct_down' (P := fun n => ∀ m, m ∈ A.descendants n ↔ A.Anc n m) ?_ n
  intro n ih m
  rw [h.descendants_flatMap, List.mem_cons, List.mem_flatMap]
  constructor
  · rintro (rfl | ⟨c, hc, hm⟩)
    · exact .refl
    · exact Anc.trans (.step ((h.mem_iff _ _).1 hc) .refl)
        ((ih c ((h.mem_iff _ _).1 hc) m).1 hm)
  · intro ha
    induction ha with
    | refl => exact .inl rfl
    | @step m p hm ha' ih2 =>
      right
      rcases ih2 with e | ⟨c, hc, hp⟩
      · subst e
        have hc := (h.mem_iff _ _).2 hm
        exact ⟨m, hc, (ih m hm m).2 .refl⟩
      · refine ⟨c, hc, ?_⟩
        have hc' := (h.mem_iff _ _).1 hc
        exact (ih c hc' m).2 (.step hm ((ih c hc' p).1 hp))

theorem WF.siblings_disjoint {A : Arena α} (h : A.WF) {n c d x : Nat} (hc : A.parent c = some n)
    (hd : A.parent d = some n) (h1 : A.Anc c x) (h2 : A.Anc d x) : c = d := by
  have key : ∀ c d, A.parent c = some n → A.parent d = some n → A.Anc c d → c = d := by
    intro c d hc hd ha
    rcases ha.cases' with e | ⟨q, hq, ha'⟩
    · exact e
    · rw [hd] at hq; cases hq
      have := h.anc_antisymm ha' (.step hc .refl)
      exact absurd this (fun e => h.self_parent_ne hc e.symm)
  rcases anc_total h1 h2 with e | e
  · exact key c d hc hd e
  · exact (key d c hd hc e).symm

theorem WF.descendants_nodup {A : Arena α} (h : A.WF) (n : Nat) : (A.descendants n).Nodup := by
  refine h.induct_down' (P := fun n => (A.descendants n).Nodup) ?_ n
  intro n ih
  rw [h.descendants_flatMap, List.nodup_cons]
  constructor
  · intro hm
    obtain ⟨c, hc, hm⟩ := List.mem_flatMap.1 hm
    have hc' := (h.mem_iff _ _).1 hc
    have := h.anc_antisymm ((h.mem_descendants c n).1 hm) (.step hc' .refl)
    subst this
    exact h.self_parent_ne hc' rfl
  · rw [List.Nodup, List.pairwise_flatMap]
    refine ⟨fun c hc => ih c ((h.mem_iff _ _).1 hc), ?_⟩
    refine (h.nodup n).imp_of_mem ?_
    intro c d hc hd hne x hx y hy e
    subst e
    exact hne (h.siblings_disjoint ((h.mem_iff _ _).1 hc) ((h.mem_iff _ _).1 hd)
      ((h.mem_descendants c x).1 hx) ((h.mem_descendants d x).1 hy))

end Arena

theorem flatMap_split {γ δ : Type} {g : γ → List δ} {cs : List γ} {l1 l2 : List δ} {m : δ}
    (h : cs.flatMap g = l1 ++ m :: l2) : ∃ c1 c c2 d1 d2, cs = c1 ++ c :: c2 ∧
      g c = d1 ++ m :: d2 ∧ l1 = c1.flatMap g ++ d1 := by
  induction cs generalizing l1 with
  | nil => simp at h
  | cons c cs ih =>
    rw [List.flatMap_cons, List.append_eq_append_iff] at h
    rcases h with ⟨r, h1, h2⟩ | ⟨r, h1, h2⟩
    · obtain ⟨c1, c', c2, d1, d2, e1, e2, e3⟩ := ih h2
      exact ⟨c :: c1, c', c2, d1, d2, by rw [e1]; rfl, e2, by
        rw [h1, e3, List.flatMap_cons, List.append_assoc]⟩
    · cases r with
      | nil =>
        simp only [List.append_nil, List.nil_append] at h1 h2
        obtain ⟨c1, c', c2, d1, d2, e1, e2, e3⟩ := ih (l1 := []) h2.symm
        refine ⟨c :: c1, c', c2, d1, d2, by rw [e1]; rfl, e2, ?_⟩
        rw [← h1, List.flatMap_cons, List.append_assoc, ← e3, List.append_nil]
      | cons y ys =>
        simp only [List.cons_append, List.cons.injEq] at h2
        obtain ⟨rfl, _⟩ := h2
        exact ⟨[], c, cs, l1, ys, rfl, h1, rfl⟩

namespace Arena

variable {α : Type}

theorem WF.descendants_parent_first {A : Arena α} (h : A.WF) (n : Nat) :
    ∀ l1 m l2 p, A.descendants n = l1 ++ m :: l2 → A.parent m = some p → m ≠ n → p ∈ l1 := by
  refine h.induct_down' (P := fun n => ∀ l1 m l2 p, A.descendants n = l1 ++ m :: l2 →
    A.parent m = some p → m ≠ n → p ∈ l1) ?_ n
  intro n ih l1 m l2 p e hp hne
  rw [h.descendants_flatMap] at e
  cases l1 with
  | nil => simp only [List.nil_append, List.cons.injEq] at e; exact absurd e.1.symm hne
  | cons y ys =>
    simp only [List.cons_append, List.cons.injEq] at e
    obtain ⟨rfl, e⟩ := e
    obtain ⟨c1, c, c2, d1, d2, e1, e2, e3⟩ := flatMap_split e
    have hc : A.parent c = some n := (h.mem_iff _ _).1 (by rw [e1]; simp)
    by_cases hm : m = c
    · subst hm; rw [hp] at hc; cases hc; simp
    · have := ih c hc d1 m d2 p e2 hp hm
      rw [e3]; simp [this]

/-- Post-order as a recursive function. -/
def post (A : Arena α) (n : Nat) : List Nat := A.fold (fun n rs => rs.flatten ++ [n]) n

theorem WF.post_eq {A : Arena α} (h : A.WF) (n : Nat) :
    A.post n = (A.children n).flatMap A.post ++ [n] := by
  unfold post
  rw [h.fold_eq, List.flatMap_def]

theorem WF.post_perm {A : Arena α} (h : A.WF) (n : Nat) : (A.post n).Perm (A.descendants n) := by
  refine h.induct_down' (P := fun n => (A.post n).Perm (A.descendants n)) ?_ n
  intro n ih
  rw [h.post_eq, h.descendants_flatMap]
  refine (List.perm_append_singleton _ _).trans (List.Perm.cons _ ?_)
  have : ∀ cs : List Nat, (∀ c ∈ cs, A.parent c = some n) →
      (cs.flatMap A.post).Perm (cs.flatMap A.descendants) := by
    intro cs
    induction cs with
    | nil => intro _; exact .refl _
    | cons c cs ih2 =>
      intro hc
      simp only [List.flatMap_cons]
      exact (ih c (hc c (by simp))).append (ih2 (fun d hd => hc d (by simp [hd])))
  exact this _ (fun c hc => (h.mem_iff _ _).1 hc)

theorem WF.mem_post {A : Arena α} (h : A.WF) (n m : Nat) : m ∈ A.post n ↔ A.Anc n m := by
  rw [(h.post_perm n).mem_iff, h.mem_descendants]

theorem WF.post_nodup {A : Arena α} (h : A.WF) (n : Nat) : (A.post n).Nodup :=
  (h.post_perm n).nodup_iff.2 (h.descendants_nodup n)

theorem WF.post_children_first {A : Arena α} (h : A.WF) (n : Nat) :
    ∀ l1 m l2 x, A.post n = l1 ++ m :: l2 → A.parent x = some m → x ∈ l1 := by
  refine h.induct_down' (P := fun n => ∀ l1 m l2 x, A.post n = l1 ++ m :: l2 →
    A.parent x = some m → x ∈ l1) ?_ n
  intro n ih l1 m l2 x e hx
  rw [h.post_eq, List.append_eq_append_iff] at e
  rcases e with ⟨r, h1, h2⟩ | ⟨r, h1, h2⟩
  · cases r with
    | nil =>
      simp only [List.nil_append, List.cons.injEq, List.append_nil] at h1 h2
      obtain ⟨rfl, _⟩ := h2
      rw [h1, List.mem_flatMap]
      exact ⟨x, (h.mem_iff _ _).2 hx, (h.mem_post x x).2 .refl⟩
    | cons y ys => simp at h2
  · cases r with
    | nil =>
      simp only [List.nil_append, List.cons.injEq, List.append_nil] at h1 h2
      obtain ⟨rfl, _⟩ := h2
      rw [← h1, List.mem_flatMap]
      exact ⟨x, (h.mem_iff _ _).2 hx, (h.mem_post x x).2 .refl⟩
    | cons y ys =>
      simp only [List.cons_append, List.cons.injEq] at h2
      obtain ⟨rfl, _⟩ := h2
      obtain ⟨c1, c, c2, d1, d2, e1, e2, e3⟩ := flatMap_split h1
      have hc : A.parent c = some n := (h.mem_iff _ _).1 (by rw [e1]; simp)
      have := ih c hc d1 m d2 x e2 hx
      rw [e3]; simp [this]

theorem WF.descendants_length {A : Arena α} (h : A.WF) {n : Nat} (hn : n < A.next) :
    (A.descendants n).length ≤ A.next := by
  have h1 := h.descendants_nodup n
  have h2 : ∀ x ∈ A.descendants n, x ∈ List.range A.next := by
    intro x hx
    have ha := (h.mem_descendants n x).1 hx
    rw [List.mem_range]
    rcases ha.cases' with e | ⟨q, hq, _⟩
    · subst e; exact hn
    · exact (h.lt_of_parent _ _ hq).1
  have := nodup_length_le h1 h2
  simpa using this

theorem WF.postOrderLoop_eq {A : Arena α} (h : A.WF) (n : Nat) :
    ∀ k st, A.postOrderLoop (2 * (A.descendants n).length + k) ((n, false) :: st) =
      A.post n ++ A.postOrderLoop k st := by
  refine h.induct_down' (P := fun n => ∀ k st,
    A.postOrderLoop (2 * (A.descendants n).length + k) ((n, false) :: st) =
      A.post n ++ A.postOrderLoop k st) ?_ n
  intro n ih k st
  have hcs : ∀ cs : List Nat, (∀ c ∈ cs, A.parent c = some n) → ∀ k st,
      A.postOrderLoop (2 * (cs.flatMap A.descendants).length + k)
        (cs.map (fun c => (c, false)) ++ st) = cs.flatMap A.post ++ A.postOrderLoop k st := by
    intro cs
    induction cs with
    | nil => intro _ k st; simp
    | cons c cs ih2 =>
      intro hc k st
      simp only [List.flatMap_cons, List.map_cons, List.cons_append, List.length_append,
        List.append_assoc]
      rw [show 2 * ((A.descendants c).length + (cs.flatMap A.descendants).length) + k =
        2 * (A.descendants c).length + (2 * (cs.flatMap A.descendants).length + k) by omega,
        ih c (hc c (by simp)), ih2 (fun d hd => hc d (by simp [hd]))]
  rw [h.descendants_flatMap, List.length_cons,
    show 2 * (((A.children n).flatMap A.descendants).length + 1) + k =
      (2 * ((A.children n).flatMap A.descendants).length + (k + 1)) + 1 by omega]
  simp only [postOrderLoop]
  rw [hcs _ (fun c hc => (h.mem_iff _ _).1 hc), h.post_eq]
  simp [postOrderLoop]

theorem WF.postOrder_eq {A : Arena α} (h : A.WF) {n : Nat} (hn : n < A.next) :
    A.postOrder n = A.post n := by
  have hl := h.descendants_length hn
  unfold postOrder
  rw [show 2 * A.next + 2 = 2 * (A.descendants n).length +
    (2 * A.next + 2 - 2 * (A.descendants n).length) by omega, h.postOrderLoop_eq]
  cases (2 * A.next + 2 - 2 * (A.descendants n).length) <;> simp [postOrderLoop]

end Arena
end Hotmeal
