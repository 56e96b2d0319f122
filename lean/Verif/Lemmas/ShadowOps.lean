import Verif.Lemmas.Path

/-!
# Closed forms of the shadow tree operations
-/

namespace Hotmeal

theorem List.set_eq_take_drop {l : List Nat} {pos : Nat} (h : pos < l.length) (x : Nat) :
    l.set pos x = l.take pos ++ x :: l.drop (pos + 1) := by
  rw [List.set_eq_take_append_cons_drop, if_pos h]

theorem List.filter_insert_displaced {l : List Nat} {pos occ x : Nat} (hnd : l.Nodup)
    (hocc : l[pos]? = some occ) (hx : x ≠ occ) :
    (l.take pos ++ x :: l.drop pos).filter (· ≠ occ) = l.set pos x := by
  obtain ⟨hlt, e⟩ := List.getElem?_eq_some_iff.1 hocc
  rw [List.set_eq_take_drop hlt, List.drop_eq_getElem_cons hlt, e]
  have hs : l = l.take pos ++ occ :: l.drop (pos + 1) := by
    conv => lhs; rw [← List.take_append_drop pos l, List.drop_eq_getElem_cons hlt, e]
  rw [hs, List.nodup_append] at hnd
  obtain ⟨_, h2, h3⟩ := hnd
  rw [List.nodup_cons] at h2
  have f1 : (l.take pos).filter (· ≠ occ) = l.take pos := by
    rw [List.filter_eq_self]; intro y hy; simp; rintro rfl; exact h3 y hy y (by simp) rfl
  have f2 : (l.drop (pos + 1)).filter (· ≠ occ) = l.drop (pos + 1) := by
    rw [List.filter_eq_self]; intro y hy; simp; rintro rfl; exact h2.1 hy
  rw [List.filter_append, f1, List.filter_cons, if_pos (by simpa using hx), List.filter_cons,
    if_neg (by simp), f2]

namespace Arena

variable {α : Type}

/-- Append `k` new nodes with data `d`; both versions of `fillGaps` are instances. -/
def fill (d : α) (A : Arena α) (p : Nat) : Nat → Arena α
  | 0 => A
  | k + 1 => fill d (A.addChild p d).1 p k

theorem WF.fill {A : Arena α} (h : A.WF) {p : Nat} (hp : p < A.next) (d : α) (k : Nat) :
    (fill d A p k).WF ∧ (fill d A p k).next = A.next + k ∧
    (∀ m, (fill d A p k).parent m =
      if A.next ≤ m ∧ m < A.next + k then some p else A.parent m) ∧
    (∀ m, (fill d A p k).children m =
      if m = p then A.children p ++ List.range' A.next k else A.children m) ∧
    (∀ m, (fill d A p k).data m = if A.next ≤ m ∧ m < A.next + k then d else A.data m) := by
  induction k generalizing A with
  | zero =>
    refine ⟨h, rfl, ?_, ?_, ?_⟩ <;> intro m <;> simp only [Arena.fill]
    · rw [if_neg (by omega)]
    · simp; rintro rfl; rfl
    · rw [if_neg (by omega)]
  | succ k ih =>
    have hn := addChild_next A p d
    obtain ⟨w, n, hpar, hch, hd⟩ := ih (h.addChild hp d) (by omega)
    simp only [Arena.fill]
    refine ⟨w, by omega, ?_, ?_, ?_⟩ <;> intro m
    · rw [hpar, hn, h.addChild_parent]
      by_cases h1 : m = A.next
      · rw [if_neg (by omega), if_pos h1, if_pos (by omega)]
      · rw [if_neg h1]
        by_cases h2 : A.next + 1 ≤ m ∧ m < A.next + 1 + k
        · rw [if_pos h2, if_pos (by omega)]
        · rw [if_neg h2, if_neg (by omega)]
    · rw [hch, hn, h.addChild_children, if_pos rfl]
      by_cases h1 : m = p
      · rw [if_pos h1, if_pos h1]
        simp [List.range'_succ]
      · rw [if_neg h1, if_neg h1, h.addChild_children, if_neg h1]
    · rw [hd, hn, addChild_data]
      by_cases h1 : m = A.next
      · rw [if_neg (by omega), if_pos h1, if_pos (by omega)]
      · rw [if_neg h1]
        by_cases h2 : A.next + 1 ≤ m ∧ m < A.next + 1 + k
        · rw [if_pos h2, if_pos (by omega)]
        · rw [if_neg h2, if_neg (by omega)]

/-- Ancestors of an old node are not changed by adding new leaves. -/
theorem anc_of_parent_eq {A B : Arena α} (h : A.WF) (hB : ∀ m, m < A.next → B.parent m = A.parent m)
    {x n : Nat} (hn : n < A.next) : B.Anc x n ↔ A.Anc x n := by
  constructor
  · intro ha
    induction ha with
    | refl => exact .refl
    | step hp _ ih =>
      rw [hB _ hn] at hp
      exact .step hp (ih ((h.lt_of_parent _ _ hp).2))
  · intro ha
    induction ha with
    | refl => exact .refl
    | step hp _ ih => exact .step (by rw [hB _ hn]; exact hp) (ih ((h.lt_of_parent _ _ hp).2))

/-- Fill up with new nodes, then append the parentless node `x`. -/
theorem WF.fill_append {A : Arena α} (h : A.WF) {p x : Nat} (hp : p < A.next) (hx : x < A.next)
    (hxp : A.parent x = none) (hanc : ¬ A.Anc x p) (d : α) (k : Nat) :
    ∃ A', (Arena.fill d A p k).append p x = .ok A' ∧ A'.WF ∧ A'.next = A.next + k ∧
      (∀ m, A'.parent m = if m = x then some p
        else if A.next ≤ m ∧ m < A.next + k then some p else A.parent m) ∧
      (∀ m, A'.children m =
        if m = p then A.children p ++ List.range' A.next k ++ [x] else A.children m) ∧
      (∀ m, A'.data m = if A.next ≤ m ∧ m < A.next + k then d else A.data m) := by
  obtain ⟨w, n, hpar, hch, hd⟩ := h.fill hp d k
  have hanc' : ¬ (Arena.fill d A p k).Anc x p := by
    rw [anc_of_parent_eq h (fun m hm => by rw [hpar, if_neg (by omega)]) hp]; exact hanc
  obtain ⟨A', e, w', n', p', c', d'⟩ := w.append_at (p := p) (x := x) (by omega) (by omega)
    (by rw [hpar, if_neg (by omega), hxp]) hanc'
  refine ⟨A', e, w', by omega, ?_, ?_, ?_⟩ <;> intro m
  · rw [p', hpar]
  · rw [c', hch, hch, if_pos rfl]
    by_cases h1 : m = p
    · rw [if_pos h1, if_pos h1]
    · rw [if_neg h1, if_neg h1, if_neg h1]
  · rw [d', hd]

end Arena

namespace Shadow

/-- The shape of a shadow tree that all operations keep. -/
structure Shape (S : Shadow) : Prop where
  wf : S.arena.WF
  super_lt : S.superRoot < S.arena.next
  super_none : S.arena.parent S.superRoot = none
  slots_len : (S.arena.children S.superRoot).length = S.nextSlot

theorem Shape.slot_ne {S : Shadow} (h : S.Shape) {n : Nat} (hn : S.IsSlot n) :
    n ≠ S.superRoot := by
  rintro rfl; have := h.super_none; rw [hn] at this; cases this

theorem Shape.slot_mem {S : Shadow} (h : S.Shape) {n : Nat} (hn : S.IsSlot n) :
    n ∈ S.arena.children S.superRoot := (h.wf.mem_iff _ _).2 hn

/-- `x` took the place of `occ` at index `pos` below `p`; `occ` became the root of a new slot. -/
structure Put (S S' : Shadow) (x p pos occ : Nat) : Prop where
  shape : S'.Shape
  super : S'.superRoot = S.superRoot
  slot : S'.nextSlot = S.nextSlot + 1
  next : S'.arena.next = S.arena.next + 1
  at_ : (S.arena.children p)[pos]? = some occ
  parent : ∀ m, S'.arena.parent m = if m = S.arena.next then some S.superRoot
    else if m = occ then some S.arena.next else if m = x then some p else S.arena.parent m
  children : ∀ m, S'.arena.children m = if m = S.arena.next then [occ]
    else if m = S.superRoot then S.arena.children S.superRoot ++ [S.arena.next]
    else if m = p then (S.arena.children p).set pos x else S.arena.children m

/-- `x` was appended below `p` at index `pos` after as many new nodes as needed. -/
structure App (S S' : Shadow) (x p pos : Nat) : Prop where
  shape : S'.Shape
  super : S'.superRoot = S.superRoot
  slot : S'.nextSlot = S.nextSlot
  le : (S.arena.children p).length ≤ pos
  next : S'.arena.next = S.arena.next + (pos - (S.arena.children p).length)
  parent : ∀ m, S'.arena.parent m = if m = x then some p
    else if S.arena.next ≤ m ∧ m < S'.arena.next then some p else S.arena.parent m
  children : ∀ m, S'.arena.children m = if m = p then S.arena.children p ++
      List.range' S.arena.next (pos - (S.arena.children p).length) ++ [x]
    else S.arena.children m

theorem displace_put {S : Shadow} (h : S.Shape) {x p pos occ : Nat}
    (hocc : (S.arena.children p)[pos]? = some occ) (hx : x < S.arena.next)
    (hxp : S.arena.parent x = none) (hanc : ¬ S.arena.Anc x p) (hps : p ≠ S.superRoot)
    (hxs : x ≠ S.superRoot) :
    ∃ S' : Shadow, (do
      let A ← S.arena.insertBefore occ x
      let (S', k) ← ({ S with arena := A } : Shadow).detachToSlot occ
      .ok (S', some k) : Res (Shadow × Option Nat)) = .ok (S', some S.nextSlot) ∧
      Put S S' x p pos occ := by
  obtain ⟨A1, e1, w1, n1, p1, c1, -⟩ := h.wf.insert_at hocc hx hxp hanc
  have hmem : occ ∈ S.arena.children p := List.mem_of_getElem? hocc
  have hop : S.arena.parent occ = some p := (h.wf.mem_iff _ _).1 hmem
  have holt := h.wf.lt_of_parent _ _ hop
  have hne : occ ≠ x := by rintro rfl; rw [hop] at hxp; cases hxp
  have hos : occ ≠ S.superRoot := by
    rintro rfl; have := h.super_none; rw [hop] at this; cases this
  have hsl := h.super_lt
  -- create_slot
  have hA1sup : A1.parent S.superRoot = none := by
    rw [p1, if_neg (Ne.symm hxs)]; exact h.super_none
  have e2 := w1.append_newNode (p := S.superRoot) (by omega) marker
  have w2 : (A1.addChild S.superRoot marker).1.WF := w1.addChild (by omega) marker
  have p2 : ∀ m, (A1.addChild S.superRoot marker).1.parent m = _ := w1.addChild_parent _ _
  have c2 : ∀ m, (A1.addChild S.superRoot marker).1.children m = _ := w1.addChild_children _ _
  have n2 : (A1.addChild S.superRoot marker).1.next = A1.next + 1 := Arena.addChild_next _ _ _
  generalize (A1.addChild S.superRoot marker).1 = A2 at e2 w2 p2 c2 n2
  have hc1s : A1.children S.superRoot = S.arena.children S.superRoot := by
    rw [c1, if_neg (Ne.symm hps)]
  have hslot : (A2.children S.superRoot)[S.nextSlot]? = some A1.next := by
    rw [c2, if_pos rfl, hc1s, List.getElem?_append_right (by rw [h.slots_len]; exact Nat.le_refl _),
      h.slots_len]
    simp
  -- detach and append
  have w3 := w2.detach occ
  have p3 : ∀ m, (A2.detach occ).parent m = if m = occ then none else A2.parent m :=
    Arena.detach_parent A2 occ
  have c3 := w2.detach_children occ
  have n3 := Arena.detach_next A2 occ
  have hanc3 : ¬ (A2.detach occ).Anc occ A1.next := by
    intro ha
    have ha := Arena.anc_detach ha
    rcases ha.cases' with e | ⟨q, hq, ha⟩
    · omega
    · rw [p2, if_pos rfl] at hq
      cases hq
      rcases ha.cases' with e | ⟨q, hq, ha⟩
      · exact hos e
      · rw [p2, if_neg (by omega), hA1sup] at hq; cases hq
  obtain ⟨A4, e4, w4, n4, p4, c4, -⟩ := w3.append_at (p := A1.next) (x := occ) (by omega) (by omega)
    (by rw [p3, if_pos rfl]) hanc3
  refine ⟨⟨A4, S.superRoot, S.nextSlot + 1⟩, ?_, ?_⟩
  · simp only [e1, bind, Except.bind, detachToSlot, createSlot, Arena.newNode_snd, e2, getSlot,
      hslot, e4]
  · refine ⟨⟨w4, by show S.superRoot < A4.next; omega, ?_, ?_⟩, rfl, rfl, ?_, hocc, ?_, ?_⟩
    · show A4.parent S.superRoot = none
      rw [p4, if_neg (Ne.symm hos), p3, if_neg (Ne.symm hos), p2, if_neg (by omega), hA1sup]
    · show (A4.children S.superRoot).length = _
      rw [c4, if_neg (by omega), c3, c2, if_pos rfl, hc1s, ← h.slots_len, List.filter_eq_self.2]
      · simp
      · intro y hy
        rw [List.mem_append] at hy
        simp only [ne_eq, decide_eq_true_eq]
        rintro rfl
        rcases hy with hy | hy
        · rw [h.wf.mem_iff, hop] at hy; cases hy; exact hps rfl
        · simp at hy; omega
    · show A4.next = _; omega
    · intro m
      show A4.parent m = _
      rw [p4, p3, p2, p1]
      have : A1.next = S.arena.next := n1
      rw [this]
      by_cases h1 : m = S.arena.next
      · rw [if_pos h1, if_pos h1, if_neg (by omega), if_neg (by omega)]
      · rw [if_neg h1, if_neg h1]
        by_cases h2 : m = occ
        · rw [if_pos h2, if_pos h2]
        · rw [if_neg h2, if_neg h2, if_neg h2]
    · intro m
      show A4.children m = _
      rw [c4]
      have hn : A1.next = S.arena.next := n1
      rw [hn]
      by_cases h1 : m = S.arena.next
      · subst h1
        rw [if_pos rfl, if_pos rfl, c3, c2, if_neg (by omega), c1, if_neg (by omega)]
        rw [h.wf.children_ge (Nat.le_refl _)]; rfl
      · rw [if_neg h1, if_neg h1, c3, c2]
        by_cases h2 : m = S.superRoot
        · subst h2
          rw [if_pos rfl, if_pos rfl, hc1s, hn, List.filter_eq_self]
          intro y hy
          rw [List.mem_append] at hy
          simp only [ne_eq, decide_eq_true_eq]
          rintro rfl
          rcases hy with hy | hy
          · rw [h.wf.mem_iff, hop] at hy; cases hy; exact hps rfl
          · simp at hy; omega
        · rw [if_neg h2, if_neg h2, c1]
          by_cases h3 : m = p
          · subst h3
            rw [if_pos rfl, if_pos rfl]
            exact List.filter_insert_displaced (h.wf.nodup m) hocc (Ne.symm hne)
          · rw [if_neg h3, if_neg h3, List.filter_eq_self]
            intro y hy
            simp only [ne_eq, decide_eq_true_eq]
            rintro rfl
            rw [h.wf.mem_iff, hop] at hy; cases hy; exact h3 rfl

theorem fillGaps_eq (A : Arena TData) (p k : Nat) : fillGaps A p k = Arena.fill gap A p k := by
  induction k generalizing A with
  | zero => rfl
  | succ k ih => simp only [fillGaps, Arena.fill, ih]

theorem append_app {S : Shadow} (h : S.Shape) {x p pos : Nat}
    (hle : (S.arena.children p).length ≤ pos) (hp : p < S.arena.next) (hx : x < S.arena.next)
    (hxp : S.arena.parent x = none) (hanc : ¬ S.arena.Anc x p) (hps : p ≠ S.superRoot)
    (hxs : x ≠ S.superRoot) :
    ∃ S' : Shadow, (do
      let A := fillGaps S.arena p (pos - (S.arena.children p).length)
      let A ← A.append p x
      .ok ({ S with arena := A }, none) : Res (Shadow × Option Nat)) = .ok (S', none) ∧
      App S S' x p pos := by
  obtain ⟨A', e, w, n, hpar, hch, -⟩ := h.wf.fill_append hp hx hxp hanc gap
    (pos - (S.arena.children p).length)
  have hsl := h.super_lt
  refine ⟨⟨A', S.superRoot, S.nextSlot⟩, ?_, ⟨w, by show S.superRoot < A'.next; omega, ?_, ?_⟩, rfl,
    rfl, hle, n, ?_, hch⟩
  · simp only [fillGaps_eq, e, bind, Except.bind]
  · show A'.parent S.superRoot = none
    rw [hpar, if_neg (Ne.symm hxs), if_neg (by omega)]; exact h.super_none
  · show (A'.children S.superRoot).length = _
    rw [hch, if_neg (Ne.symm hps)]; exact h.slots_len
  · intro m
    show A'.parent m = _
    rw [hpar, ← n]

/-- Outcome of placing a parentless node. -/
def Placed (S S' : Shadow) (x p pos : Nat) (slot : Option Nat) : Prop :=
  (∃ occ, Put S S' x p pos occ ∧ slot = some S.nextSlot) ∨ (App S S' x p pos ∧ slot = none)

theorem insertAtPosition_placed {S : Shadow} (h : S.Shape) {x p pos : Nat}
    (hp : p < S.arena.next) (hx : x < S.arena.next)
    (hxp : S.arena.parent x = none) (hanc : ¬ S.arena.Anc x p) (hps : p ≠ S.superRoot)
    (hxs : x ≠ S.superRoot) :
    ∃ S' slot, S.insertAtPosition p pos x = .ok (S', slot) ∧ Placed S S' x p pos slot := by
  unfold insertAtPosition
  split
  · next occ hocc =>
    obtain ⟨S', e, hput⟩ := displace_put h hocc hx hxp hanc hps hxs
    exact ⟨S', _, e, .inl ⟨occ, hput, rfl⟩⟩
  · next hocc =>
    obtain ⟨S', e, happ⟩ := append_app h (List.getElem?_eq_none_iff.1 hocc) hp hx hxp hanc hps hxs
    exact ⟨S', _, e, .inr ⟨happ, rfl⟩⟩

/-- The second half of `moveToPosition`. -/
theorem moveToPosition_placed {S S1 : Shadow} (h : S1.Shape) {x p pos : Nat}
    (hd : S.moveDetach x p = .ok S1)
    (hp : p < S1.arena.next) (hx : x < S1.arena.next)
    (hxp : S1.arena.parent x = none) (hanc : ¬ S1.arena.Anc x p) (hps : p ≠ S1.superRoot)
    (hxs : x ≠ S1.superRoot) :
    ∃ S' slot, S.moveToPosition x p pos = .ok (S', slot) ∧ Placed S1 S' x p pos slot := by
  simp only [moveToPosition, hd, bind, Except.bind]
  split
  · next occ hocc =>
    obtain ⟨S', e, hput⟩ := displace_put h hocc hx hxp hanc hps hxs
    have hne : occ ≠ x := by
      rintro rfl
      have := (h.wf.mem_iff _ _).1 (List.mem_of_getElem? hocc)
      rw [hxp] at this; cases this
    rw [if_pos hne]
    exact ⟨S', _, e, .inl ⟨occ, hput, rfl⟩⟩
  · next hocc =>
    obtain ⟨S', e, happ⟩ := append_app h (List.getElem?_eq_none_iff.1 hocc) hp hx hxp hanc hps hxs
    exact ⟨S', _, e, .inr ⟨happ, rfl⟩⟩

/-! ### Detaching -/

/-- The child `n` of `p` was replaced by the new node `S.arena.next`. -/
structure Repl (S S' : Shadow) (n p : Nat) : Prop where
  shape : S'.Shape
  super : S'.superRoot = S.superRoot
  slot : S'.nextSlot = S.nextSlot
  next : S'.arena.next = S.arena.next + 1
  parent : ∀ m, S'.arena.parent m =
    if m = n then none else if m = S.arena.next then some p else S.arena.parent m
  children : ∀ m, S'.arena.children m =
    if m = p then Arena.swapIn n S.arena.next (S.arena.children p) else S.arena.children m

theorem detachWithPlaceholder_repl {S : Shadow} (h : S.Shape) {n p : Nat}
    (hp : S.arena.parent n = some p) (hps : p ≠ S.superRoot) :
    ∃ S', S.detachWithPlaceholder n = .ok S' ∧ Repl S S' n p := by
  obtain ⟨A1, A', e1, e2, hr⟩ := h.wf.replace hp placeholder
  refine ⟨⟨A', S.superRoot, S.nextSlot⟩, ?_, ⟨hr.wf, ?_, ?_, ?_⟩, rfl, rfl, hr.next, hr.parent,
    hr.children⟩
  · simp only [detachWithPlaceholder, Arena.newNode_snd, e1, bind, Except.bind, e2]
  · show S.superRoot < A'.next
    have := hr.next; have := h.super_lt; omega
  · show A'.parent S.superRoot = none
    rw [hr.parent]
    have := h.super_lt
    by_cases h1 : S.superRoot = n
    · rw [if_pos h1]
    · rw [if_neg h1, if_neg (by omega), h.super_none]
  · show (A'.children S.superRoot).length = _
    rw [hr.children, if_neg (Ne.symm hps), h.slots_len]

/-- The slot root `n` was taken out of its slot `p`. -/
structure Unslot (S S' : Shadow) (n p : Nat) : Prop where
  shape : S'.Shape
  super : S'.superRoot = S.superRoot
  slot : S'.nextSlot = S.nextSlot
  next : S'.arena.next = S.arena.next
  parent : ∀ m, S'.arena.parent m = if m = n then none else S.arena.parent m
  children : ∀ m, S'.arena.children m =
    if m = p then (S.arena.children p).filter (· ≠ n) else S.arena.children m

theorem detach_unslot {S : Shadow} (h : S.Shape) {n p : Nat}
    (hp : S.arena.parent n = some p) (hps : p ≠ S.superRoot) :
    Unslot S { S with arena := S.arena.detach n } n p := by
  have hc := h.wf.detach_children n
  have hns : ∀ q, q ≠ p → (S.arena.children q).filter (· ≠ n) = S.arena.children q := by
    intro q hq
    rw [List.filter_eq_self]
    intro y hy
    simp only [ne_eq, decide_eq_true_eq]
    rintro rfl
    rw [h.wf.mem_iff, hp] at hy
    cases hy; exact hq rfl
  refine ⟨⟨h.wf.detach n, ?_, ?_, ?_⟩, rfl, rfl, Arena.detach_next _ _, Arena.detach_parent _ _, ?_⟩
  · show S.superRoot < (S.arena.detach n).next
    rw [Arena.detach_next]; exact h.super_lt
  · show (S.arena.detach n).parent S.superRoot = none
    rw [Arena.detach_parent, h.super_none]; split <;> rfl
  · show ((S.arena.detach n).children S.superRoot).length = _
    rw [hc, hns _ (Ne.symm hps), h.slots_len]
  · intro m
    show (S.arena.detach n).children m = _
    rw [hc]
    by_cases h1 : m = p
    · rw [if_pos h1, h1]
    · rw [if_neg h1, hns m h1]

theorem isAncestor_iff {S : Shadow} (h : S.arena.WF) {x n : Nat} :
    S.isAncestor x n = true ↔ S.arena.Anc x n ∧ x ≠ n := by
  unfold isAncestor
  cases hp : S.arena.parent n with
  | none =>
    simp only [Bool.false_eq_true, false_iff]
    rintro ⟨ha, hne⟩
    rcases ha.cases' with e | ⟨q, hq, _⟩
    · exact hne e
    · rw [hp] at hq; cases hq
  | some p =>
    simp only
    rw [h.isAncestorOrSelf_iff]
    constructor
    · intro ha
      refine ⟨.step hp ha, ?_⟩
      rintro rfl
      exact h.self_parent_ne hp (h.anc_antisymm (.step hp .refl) ha)
    · rintro ⟨ha, hne⟩
      rcases ha.cases' with e | ⟨q, hq, ha'⟩
      · exact absurd e hne
      · rw [hp] at hq; cases hq; exact ha'

/-- `moveDetach` outside the ancestor case. -/
theorem moveDetach_cases {S : Shadow} (h : S.Shape) {n p q : Nat} (hp : S.arena.parent n = some q)
    (hq : q ≠ S.superRoot) (hanc : ¬ S.arena.Anc n p) :
    ∃ S', S.moveDetach n p = .ok S' ∧
      ((¬ S.IsSlot q ∧ Repl S S' n q) ∨ (S.IsSlot q ∧ Unslot S S' n q)) := by
  have hna : S.isAncestor n p = false := by
    cases e : S.isAncestor n p with
    | false => rfl
    | true => exact absurd ((isAncestor_iff h.wf).1 e).1 hanc
  simp only [moveDetach, hna, Bool.false_eq_true, if_false, hp]
  by_cases hs : S.IsSlot q
  · rw [if_neg (by simpa using hs)]
    exact ⟨_, rfl, .inr ⟨hs, detach_unslot h hp hq⟩⟩
  · rw [if_pos (by simpa using hs)]
    obtain ⟨S', e, hr⟩ := detachWithPlaceholder_repl h hp hq
    exact ⟨S', e, .inl ⟨hs, hr⟩⟩

end Shadow
end Hotmeal
