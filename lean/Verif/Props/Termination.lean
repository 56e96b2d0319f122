import Verif.Props.Script

set_option autoImplicit false
set_option linter.unusedSectionVars false

/-!
# C39, C40: termination and traversals

The model runs loops and recursions of the code with a step budget. The theorems of the first part
show that the budgets are never used up: with any larger budget the result is the same, and the work
list of the candidate loop is empty at the end.
-/

namespace Hotmeal

namespace Arena

variable {α : Type}

/-! ### C39: tree walks -/

/-- **C39.** Every recursive walk over a tree ends within the model's budget: with a larger one its
result is the same. -/
theorem C39_walks_terminate {β : Type} {A : Arena α} (h : A.WF) (alg : Nat → List β → β) (n k : Nat)
    (hk : A.next ≤ k) : A.foldF alg k n = A.fold alg n := by
  obtain ⟨r, hb, hr⟩ := h.bounded
  exact h.foldF_stable alg hb hr _ _ _ (by omega) (by omega)

/-- **C39.** The post-order iterator ends within the model's budget. -/
theorem C39_post_order_terminates {A : Arena α} (h : A.WF) {n : Nat} (hn : n < A.next) (k : Nat)
    (hk : 2 * A.next ≤ k) : A.postOrderLoop k [(n, false)] = A.postOrder n := by
  have hl := h.descendants_length hn
  rw [h.postOrder_eq hn]
  rw [show k = 2 * (A.descendants n).length + (k - 2 * (A.descendants n).length) by omega,
    h.postOrderLoop_eq]
  cases (k - 2 * (A.descendants n).length) <;> simp [postOrderLoop]

/-- **C39.** The walk up the ancestors ends within the model's budget. -/
theorem C39_ancestor_walk_terminates {A : Arena α} (h : A.WF) (x n k : Nat) (hk : A.next ≤ k) :
    A.isAncestorOrSelf x k n = A.isAncestorOrSelf x A.next n := by
  have mono : ∀ j n, A.isAncestorOrSelf x j n = true → A.isAncestorOrSelf x (j + 1) n = true := by
    intro j
    induction j with
    | zero => intro n hj; simp only [isAncestorOrSelf] at hj ⊢; simp [hj]
    | succ j ih =>
      intro n hj
      simp only [isAncestorOrSelf, Bool.or_eq_true] at hj
      rcases hj with e | hp
      · simp only [isAncestorOrSelf]; simp [e]
      · rw [isAncestorOrSelf]
        cases hq : A.parent n with
        | none => rw [hq] at hp; cases hp
        | some p => rw [hq] at hp; simp only [Bool.or_eq_true]; exact .inr (ih p hp)
  have monoN : ∀ d j n, A.isAncestorOrSelf x j n = true → A.isAncestorOrSelf x (j + d) n = true := by
    intro d
    induction d with
    | zero => intro j n hj; exact hj
    | succ d ih => intro j n hj; exact mono _ _ (ih j n hj)
  rw [Bool.eq_iff_iff]
  constructor
  · intro e; exact (h.isAncestorOrSelf_iff x n).2 (isAncestorOrSelf_sound _ _ e)
  · intro e
    have := monoN (k - A.next) A.next n e
    rwa [show A.next + (k - A.next) = k by omega] at this

/-! ### C40: traversals -/

theorem WF.descendants_sublist {A : Arena α} (h : A.WF) {r n : Nat} (ha : A.Anc r n) :
    (A.descendants n).Sublist (A.descendants r) := by
  induction ha with
  | refl => exact List.Sublist.refl _
  | @step n p hp _ ih =>
    refine List.Sublist.trans ?_ ih
    rw [h.descendants_flatMap p]
    obtain ⟨l, r, e⟩ := List.append_of_mem ((h.mem_iff _ _).2 hp)
    rw [e, List.flatMap_append, List.flatMap_cons]
    exact ((List.sublist_append_left _ _).trans (List.sublist_append_right _ _)).cons _

theorem WF.post_sublist {A : Arena α} (h : A.WF) {r n : Nat} (ha : A.Anc r n) :
    (A.post n).Sublist (A.post r) := by
  induction ha with
  | refl => exact List.Sublist.refl _
  | @step n p hp _ ih =>
    refine List.Sublist.trans ?_ ih
    rw [h.post_eq p]
    obtain ⟨l, r, e⟩ := List.append_of_mem ((h.mem_iff _ _).2 hp)
    rw [e, List.flatMap_append, List.flatMap_cons, List.append_assoc, List.append_assoc]
    exact (List.sublist_append_left _ _).trans (List.sublist_append_right _ _)

theorem sublist_flatMap {γ : Type} {f : γ → List γ} (hf : ∀ c, [c].Sublist (f c)) (l : List γ) :
    l.Sublist (l.flatMap f) := by
  induction l with
  | nil => exact List.Sublist.refl _
  | cons c l ih =>
    rw [List.flatMap_cons]
    exact List.Sublist.append (hf c) ih

/-- **C40.** Pre-order: every node of the tree exactly once, the root first, parents before their
children, siblings in order. -/
theorem C40_pre_order {A : Arena α} (h : A.WF) (r : Nat) :
    (∀ n, n ∈ A.descendants r ↔ A.Anc r n) ∧ (A.descendants r).Nodup ∧
    (A.descendants r).head? = some r ∧
    (∀ l1 n l2 p, A.descendants r = l1 ++ n :: l2 → A.parent n = some p → n ≠ r → p ∈ l1) ∧
    (∀ n, A.Anc r n → (A.children n).Sublist (A.descendants r)) := by
  refine ⟨h.mem_descendants r, h.descendants_nodup r, ?_, h.descendants_parent_first r, ?_⟩
  · rw [h.descendants_flatMap]; rfl
  · intro n hn
    refine List.Sublist.trans ?_ (h.descendants_sublist hn)
    rw [h.descendants_flatMap n]
    refine (sublist_flatMap ?_ _).cons _
    intro c
    rw [h.descendants_flatMap c]
    simp

/-- **C40.** Post-order: every node of the tree exactly once, the root last, children before their
parents, siblings in order. -/
theorem C40_post_order {A : Arena α} (h : A.WF) (r : Nat) (hr : r < A.next) :
    (∀ n, n ∈ A.postOrder r ↔ A.Anc r n) ∧ (A.postOrder r).Nodup ∧
    (A.postOrder r).getLast? = some r ∧
    (∀ l1 n l2 c, A.postOrder r = l1 ++ n :: l2 → A.parent c = some n → c ∈ l1) ∧
    (∀ n, A.Anc r n → (A.children n).Sublist (A.postOrder r)) := by
  rw [h.postOrder_eq hr]
  refine ⟨h.mem_post r, h.post_nodup r, ?_, h.post_children_first r, ?_⟩
  · rw [h.post_eq]; simp
  · intro n hn
    refine List.Sublist.trans ?_ (h.post_sublist hn)
    rw [h.post_eq n]
    refine (sublist_flatMap ?_ _).trans (List.sublist_append_left _ _)
    intro c
    rw [h.post_eq c]
    simp

end Arena

example : (diffable (.ofForest opq1)).descendants 2 = [2, 3, 4, 5, 6, 7, 8, 9, 10, 11, 12] ∧
    (diffable (.ofForest opq1)).postOrder 2 = [5, 4, 7, 6, 3, 10, 9, 11, 8, 12, 2] := by
  decide +kernel

/-! ### C39: the candidate loop of the top-down matching -/

/-- Repeat a step. -/
def steps {σ : Type} (f : σ → σ) : Nat → σ → σ
  | 0, s => s
  | k + 1, s => steps f k (f s)

variable {H : Type} [DecidableEq H]

/-- One iteration of the `while let Some(..) = candidates.pop()` loop, matching.rs:214-264. -/
def topDownStep (TA TB : DiffTree H) (cfg : Config) (depth : Nat) :
    List (Nat × Nat) × Matching → List (Nat × Nat) × Matching
  | ([], M) => ([], M)
  | ((a, b) :: st, M) =>
    if M.containsA a || M.containsB b then (st, M)
    else if TA.height a < cfg.minHeight then (st, M)
    else if TA.hash a == TB.hash b && TA.kind a == TB.kind b then
      (st, matchSubtrees TA TB depth a b M)
    else if TA.isOpaque a || TB.isOpaque b then
      (st, if TA.kind a == TB.kind b then M.add a b else M)
    else ((childCandidates TA TB M a b).reverse ++ st, M)

theorem steps_nil (TA TB : DiffTree H) (cfg : Config) (depth k : Nat) (M : Matching) :
    steps (topDownStep TA TB cfg depth) k ([], M) = ([], M) := by
  induction k with
  | zero => rfl
  | succ k ih => rw [steps]; exact ih

/-- The fuelled loop is the repetition of the step. -/
theorem topDownLoop_steps (TA TB : DiffTree H) (cfg : Config) (depth k : Nat) :
    ∀ (st : List (Nat × Nat)) (M : Matching), topDownLoop TA TB cfg depth k st M =
      (steps (topDownStep TA TB cfg depth) k (st, M)).2 := by
  induction k with
  | zero => intro st M; cases st <;> rfl
  | succ k ih =>
    intro st M
    cases st with
    | nil => rw [steps_nil]; rfl
    | cons p st =>
      obtain ⟨a, b⟩ := p
      simp only [topDownLoop, steps, topDownStep]
      split
      · exact ih _ _
      · split
        · exact ih _ _
        · split
          · exact ih _ _
          · split
            · exact ih _ _
            · exact ih _ _

/-- The work a candidate pair can cause: the product of the subtree sizes. -/
def pairWork (A B : Arena TData) (st : List (Nat × Nat)) : Nat :=
  (st.map fun p => (A.descendants p.1).length * (B.descendants p.2).length).sum

variable (hashNode : HKind → Option Str → List H → H) {A B : Arena TData} {ra rb : Nat}

theorem pairWork_append (l r : List (Nat × Nat)) :
    pairWork A B (l ++ r) = pairWork A B l + pairWork A B r := by
  simp [pairWork]

theorem pairWork_reverse (l : List (Nat × Nat)) : pairWork A B l.reverse = pairWork A B l := by
  unfold pairWork
  rw [List.map_reverse, List.sum_reverse]

theorem pairWork_row (a : Nat) (P : Nat → Bool) (l : List Nat) :
    pairWork A B ((l.filter P).map fun b => (a, b)) ≤
      (A.descendants a).length * (l.map fun b => (B.descendants b).length).sum := by
  induction l with
  | nil => simp [pairWork]
  | cons b l ih =>
    rw [List.map_cons, List.sum_cons, Nat.mul_add, List.filter_cons]
    split
    · rw [List.map_cons]
      show (A.descendants a).length * (B.descendants b).length + pairWork A B _ ≤ _
      omega
    · omega

theorem pairWork_rows (P : Nat → Nat → Bool) (l r : List Nat) :
    pairWork A B (l.flatMap fun a => (r.filter (P a)).map fun b => (a, b)) ≤
      (l.map fun a => (A.descendants a).length).sum * (r.map fun b => (B.descendants b).length).sum := by
  induction l with
  | nil => simp [pairWork]
  | cons a l ih =>
    rw [List.flatMap_cons, pairWork_append, List.map_cons, List.sum_cons, Nat.add_mul]
    have := pairWork_row (A := A) (B := B) a (P a) r
    omega

theorem le_sum {l : List Nat} {x : Nat} (h : x ∈ l) : x ≤ l.sum := by
  induction l with
  | nil => cases h
  | cons y l ih =>
    rw [List.sum_cons]
    rcases List.mem_cons.1 h with rfl | h
    · omega
    · have := ih h; omega

theorem size_eq {α : Type} {A : Arena α} (h : A.WF) (n : Nat) :
    (A.descendants n).length = ((A.children n).map fun c => (A.descendants c).length).sum + 1 := by
  rw [h.descendants_flatMap, List.length_cons, List.length_flatMap]

/-- Each iteration consumes work. -/
theorem pairWork_step (hA : A.WF) (hB : B.WF) (cfg : Config) (depth : Nat) (p : Nat × Nat)
    (st : List (Nat × Nat)) (M : Matching) :
    pairWork A B (topDownStep (DiffTree.ofArena hashNode A ra) (DiffTree.ofArena hashNode B rb) cfg depth
      (p :: st, M)).1 < pairWork A B (p :: st) := by
  obtain ⟨a, b⟩ := p
  have h1 := size_eq hA a
  have h2 := size_eq hB b
  have hpos : 0 < (A.descendants a).length * (B.descendants b).length :=
    Nat.mul_pos (by omega) (by omega)
  have hcons : pairWork A B ((a, b) :: st) =
      (A.descendants a).length * (B.descendants b).length + pairWork A B st := by simp [pairWork]
  simp only [topDownStep]
  split
  · show pairWork A B st < _; omega
  · split
    · show pairWork A B st < _; omega
    · split
      · show pairWork A B st < _; omega
      · split
        · show pairWork A B st < _; omega
        · show pairWork A B (_ ++ st) < _
          rw [pairWork_append, pairWork_reverse, hcons]
          have h3 := pairWork_rows (A := A) (B := B)
            (fun ac bc => !M.containsB bc && ((DiffTree.ofArena hashNode A ra).hash ac ==
              (DiffTree.ofArena hashNode B rb).hash bc || (DiffTree.ofArena hashNode A ra).kind ac ==
              (DiffTree.ofArena hashNode B rb).kind bc)) (A.children a) (B.children b)
          have h4 : pairWork A B (childCandidates (DiffTree.ofArena hashNode A ra)
              (DiffTree.ofArena hashNode B rb) M a b) ≤
              ((A.children a).map fun c => (A.descendants c).length).sum *
                ((B.children b).map fun c => (B.descendants c).length).sum := h3
          have h5 : ((A.children a).map fun c => (A.descendants c).length).sum *
                ((B.children b).map fun c => (B.descendants c).length).sum <
              (A.descendants a).length * (B.descendants b).length := by
            rw [h1, h2]
            generalize ((A.children a).map fun c => (A.descendants c).length).sum = x
            generalize ((B.children b).map fun c => (B.descendants c).length).sum = y
            rw [Nat.add_mul, Nat.mul_add]
            omega
          omega

theorem steps_done (hA : A.WF) (hB : B.WF) (cfg : Config) (depth : Nat) :
    ∀ (k : Nat) (st : List (Nat × Nat)) (M : Matching), pairWork A B st ≤ k →
    (steps (topDownStep (DiffTree.ofArena hashNode A ra) (DiffTree.ofArena hashNode B rb) cfg depth) k
      (st, M)).1 = [] := by
  intro k
  induction k with
  | zero =>
    intro st M h
    cases st with
    | nil => rfl
    | cons p st =>
      have := pairWork_step hashNode (ra := ra) (rb := rb) hA hB cfg depth p st M
      omega
  | succ k ih =>
    intro st M h
    cases st with
    | nil => rw [steps_nil]
    | cons p st =>
      have := pairWork_step hashNode (ra := ra) (rb := rb) hA hB cfg depth p st M
      rw [steps]
      generalize topDownStep (DiffTree.ofArena hashNode A ra) (DiffTree.ofArena hashNode B rb) cfg depth
        (p :: st, M) = r at this ⊢
      exact ih r.1 r.2 (by omega)

theorem steps_add {σ : Type} (f : σ → σ) (j k : Nat) : ∀ s, steps f (j + k) s = steps f k (steps f j s) := by
  induction j with
  | zero => intro s; rw [Nat.zero_add]; rfl
  | succ j ih => intro s; rw [show j + 1 + k = (j + k) + 1 by omega]; exact ih (f s)

/-- **C39.** The candidate loop of the top-down matching empties its work list after at most
`|A| * |B|` iterations, whatever the trees, and the result is that of the model. -/
theorem C39_candidate_loop_terminates (hA : A.WF) (hB : B.WF) (cfg : Config) (M : Matching) (k : Nat)
    (hk : (A.descendants ra).length * (B.descendants rb).length ≤ k) :
    steps (topDownStep (DiffTree.ofArena hashNode A ra) (DiffTree.ofArena hashNode B rb) cfg
      (matchDepth (DiffTree.ofArena hashNode A ra) (DiffTree.ofArena hashNode B rb))) k
      ([(ra, rb)], M) =
    ([], topDown (DiffTree.ofArena hashNode A ra) (DiffTree.ofArena hashNode B rb) cfg M) := by
  have hw : pairWork A B [(ra, rb)] = (A.descendants ra).length * (B.descendants rb).length := by
    simp [pairWork]
  generalize hd : matchDepth (DiffTree.ofArena hashNode A ra) (DiffTree.ofArena hashNode B rb) = d
  have key : ∀ j, (A.descendants ra).length * (B.descendants rb).length ≤ j →
      steps (topDownStep (DiffTree.ofArena hashNode A ra) (DiffTree.ofArena hashNode B rb) cfg d) j
        ([(ra, rb)], M) =
      steps (topDownStep (DiffTree.ofArena hashNode A ra) (DiffTree.ofArena hashNode B rb) cfg d)
        ((A.descendants ra).length * (B.descendants rb).length) ([(ra, rb)], M) := by
    intro j hj
    obtain ⟨i, rfl⟩ := Nat.le.dest hj
    rw [steps_add]
    have := steps_done hashNode (ra := ra) (rb := rb) hA hB cfg d
      ((A.descendants ra).length * (B.descendants rb).length) [(ra, rb)] M (by omega)
    generalize steps (topDownStep (DiffTree.ofArena hashNode A ra) (DiffTree.ofArena hashNode B rb) cfg d)
        ((A.descendants ra).length * (B.descendants rb).length) ([(ra, rb)], M) = s at this ⊢
    obtain ⟨st, M'⟩ := s
    simp only at this
    subst this
    exact steps_nil _ _ _ _ _ _
  refine Prod.ext ?_ ?_
  · exact steps_done hashNode hA hB cfg d k _ M (by omega)
  · unfold topDown
    rw [hd, topDownLoop_steps, key k hk]
    show _ = (steps _ _ ([(ra, rb)], M)).2
    rw [key _ (show (A.descendants ra).length * (B.descendants rb).length ≤
      topDownFuel (DiffTree.ofArena hashNode A ra) (DiffTree.ofArena hashNode B rb) from Nat.le_succ _)]

/-- **C39.** The recursion that matches two subtrees is never cut short: a larger depth limit gives the
same result. -/
theorem C39_match_subtrees_terminates (hA : A.WF) (TB : DiffTree H) (a : Nat) :
    ∀ (k b : Nat) (M : Matching), (A.descendants a).length ≤ k →
      matchSubtrees (DiffTree.ofArena hashNode A ra) TB k a b M =
      matchSubtrees (DiffTree.ofArena hashNode A ra) TB (A.descendants a).length a b M := by
  refine hA.induct_down' (P := fun a => ∀ (k b : Nat) (M : Matching), (A.descendants a).length ≤ k →
      matchSubtrees (DiffTree.ofArena hashNode A ra) TB k a b M =
      matchSubtrees (DiffTree.ofArena hashNode A ra) TB (A.descendants a).length a b M) ?_ a
  intro a ih k b M hk
  have hs := size_eq hA a
  generalize hsum : ((A.children a).map fun c => (A.descendants c).length).sum = s at hs
  rw [hs]
  obtain ⟨k, rfl⟩ : ∃ j, k = j + 1 := ⟨k - 1, by omega⟩
  simp only [matchSubtrees]
  split
  · rfl
  · split
    · rfl
    · have hle : ∀ c ∈ A.children a, (A.descendants c).length ≤ s := by
        intro c hc
        rw [← hsum]
        exact le_sum (List.mem_map_of_mem (f := fun c => (A.descendants c).length) hc)
      have fold : ∀ (l : List (Nat × Nat)) (M : Matching), (∀ p ∈ l, p.1 ∈ A.children a) →
          l.foldl (fun M p => matchSubtrees (DiffTree.ofArena hashNode A ra) TB k p.1 p.2 M) M =
          l.foldl (fun M p => matchSubtrees (DiffTree.ofArena hashNode A ra) TB s p.1 p.2 M) M := by
        intro l
        induction l with
        | nil => intro M _; rfl
        | cons p l ihl =>
          intro M hl
          have hp := hl p (by simp)
          have hpar := (hA.mem_iff _ _).1 hp
          rw [List.foldl_cons, List.foldl_cons, ih p.1 hpar k p.2 M (by have := hle _ hp; omega),
            ih p.1 hpar s p.2 M (hle _ hp)]
          exact ihl _ (fun q hq => hl q (by simp [hq]))
      exact fold _ _ (fun p hp => (List.of_mem_zip hp).1)

/-- The depth limit of the model is large enough. -/
theorem matchDepth_enough (hA : A.WF) {a : Nat} (ha : A.Anc ra a) (TB : DiffTree H) :
    (A.descendants a).length ≤ matchDepth (DiffTree.ofArena hashNode A ra) TB := by
  have := (hA.descendants_sublist ha).length_le
  show _ ≤ (A.descendants ra).length + _ + 1
  omega

/-- A concrete case with several iterations. -/
example : (steps (topDownStep (oldTree Shape.node (.ofForest opq1) 2) (newTree Shape.node (.ofForest opq2) 2)
      Config.diff 100) 3 ([(0, 2)], Matching.empty)).1 ≠ [] ∧
    (steps (topDownStep (oldTree Shape.node (.ofForest opq1) 2) (newTree Shape.node (.ofForest opq2) 2)
      Config.diff 100) 200 ([(0, 2)], Matching.empty)).1 = [] := by
  decide +kernel

end Hotmeal
