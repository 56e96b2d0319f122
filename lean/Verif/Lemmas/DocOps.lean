import Verif.Lemmas.ShadowOps

set_option autoImplicit false

/-!
# Closed forms of the document patching operations
-/

namespace Hotmeal

/-- `x` took the place of `occ` at index `pos` below `p`; `occ` is parentless now. -/
structure DPut (D D' : Arena NodeData) (x p pos occ : Nat) : Prop where
  wf : D'.WF
  next : D'.next = D.next
  at_ : (D.children p)[pos]? = some occ
  children : ∀ m, D'.children m = if m = p then (D.children p).set pos x else D.children m
  data : ∀ m, D'.data m = D.data m

/-- `x` was put at index `pos` below `p`, after as many new empty text nodes as needed; `rest` is
what remains of the children from `pos` on. -/
structure DApp (D D' : Arena NodeData) (x p pos : Nat) : Prop where
  wf : D'.WF
  next : D'.next = D.next + (pos - (D.children p).length)
  children_ne : ∀ m, m ≠ p → D'.children m = D.children m
  children : ∃ rest, rest <:+ (D.children p).drop pos ∧
    D'.children p = (D.children p).take pos ++
      List.range' D.next (pos - (D.children p).length) ++ x :: rest
  data : ∀ m, D'.data m = if D.next ≤ m ∧ m < D'.next then Document.emptyText else D.data m

theorem docFillGaps_eq (A : Arena NodeData) (p k : Nat) :
    fillGaps A p k = Arena.fill Document.emptyText A p k := by
  induction k generalizing A with
  | zero => rfl
  | succ k ih => simp only [fillGaps, Arena.fill, ih]

theorem slotParent_append {A : Arena NodeData} {slots : Slots} {q : Path} {p pos : Nat}
    (h : navigate A slots q = .ok p) : slotParent A slots (q ++ [pos]) = .ok (p, pos) := by
  have hq : q ≠ [] := by rintro rfl; simp [navigate] at h
  unfold slotParent
  have hl : ¬ (q ++ [pos]).length < 2 := by
    cases q with
    | nil => exact absurd rfl hq
    | cons a as => simp
  rw [if_neg hl]
  simp only [List.getLast?_concat, List.dropLast_concat, h, bind, Except.bind]

theorem replaceByEmpty_repl {D : Arena NodeData} (h : D.WF) {n p : Nat}
    (hp : D.parent n = some p) :
    ∃ D', replaceByEmpty D n = .ok D' ∧ D.Replaced D' n p Document.emptyText := by
  obtain ⟨A1, A', e1, e2, hr⟩ := h.replace hp Document.emptyText
  refine ⟨A', ?_, hr⟩
  simp only [replaceByEmpty, Arena.newNode_snd, e1, bind, Except.bind, e2]

theorem replaceByEmpty_free {D : Arena NodeData} (h : D.WF) {n : Nat} (hn : n < D.next)
    (hp : D.parent n = none) :
    replaceByEmpty D n = .ok (D.newNode Document.emptyText).1 := by
  have h1 : (D.newNode Document.emptyText).1.parent D.next = none := by simp [Arena.newNode]
  have h2 : (D.newNode Document.emptyText).1.parent n = none := by rw [h.newNode_parent, hp]
  simp only [replaceByEmpty, Arena.newNode_snd, Arena.insertBefore, bind, Except.bind,
    Arena.detach_of_parent_none h1, h2]
  rw [if_neg (by omega)]
  simp only [Arena.detach_of_parent_none h2]

theorem insertAt_put {D : Arena NodeData} {slots : Slots} (h : D.WF) {q : Path}
    {x p pos occ k : Nat} (hq : navigate D slots q = .ok p)
    (hocc : (D.children p)[pos]? = some occ) (hx : x < D.next) (hxp : D.parent x = none)
    (hanc : ¬ D.Anc x p) :
    ∃ D', insertAt D slots (q ++ [pos]) x (some k) = .ok (D', Arena.upd slots k (some occ)) ∧
      DPut D D' x p pos occ := by
  have hmem : occ ∈ D.children p := List.mem_of_getElem? hocc
  have hop : D.parent occ = some p := (h.mem_iff _ _).1 hmem
  have holt := h.lt_of_parent _ _ hop
  have hne : x ≠ occ := by rintro rfl; rw [hop] at hxp; cases hxp
  obtain ⟨hlt, eocc⟩ := List.getElem?_eq_some_iff.1 hocc
  have w1 := h.detach occ
  have c1 := h.detach_children occ
  have p1 := Arena.detach_parent D occ
  have n1 := Arena.detach_next D occ
  have d1 := Arena.detach_data D occ
  have hc1p : (D.detach occ).children p = (D.children p).take pos ++ (D.children p).drop (pos + 1) := by
    rw [c1]
    have := List.filter_insert_displaced (h.nodup p) hocc hne
    rw [List.set_eq_take_drop hlt] at this
    have hs : D.children p = (D.children p).take pos ++ occ :: (D.children p).drop (pos + 1) := by
      conv => lhs; rw [← List.take_append_drop pos (D.children p), List.drop_eq_getElem_cons hlt, eocc]
    have hnd := h.nodup p
    rw [hs, List.nodup_append] at hnd
    obtain ⟨_, h2, h3⟩ := hnd
    rw [List.nodup_cons] at h2
    conv => lhs; rw [hs]
    rw [List.filter_append, List.filter_cons, if_neg (by simp)]
    congr 1
    · rw [List.filter_eq_self]; intro y hy; simp; rintro rfl; exact h3 y hy y (by simp) rfl
    · rw [List.filter_eq_self]; intro y hy; simp; rintro rfl; exact h2.1 hy
  have hc1n : ∀ m, m ≠ p → (D.detach occ).children m = D.children m := by
    intro m hm
    rw [c1, List.filter_eq_self]
    intro y hy
    simp only [ne_eq, decide_eq_true_eq]
    rintro rfl
    rw [h.mem_iff, hop] at hy; cases hy; exact hm rfl
  have hlen : pos - ((D.detach occ).children p).length = 0 := by
    rw [hc1p]; simp; omega
  have hanc1 : ¬ (D.detach occ).Anc x p := fun ha => hanc (Arena.anc_detach ha)
  have hx1 : (D.detach occ).parent x = none := by rw [p1, if_neg hne, hxp]
  have htl : ((D.children p).take pos).length = pos := by simp; omega
  have key : ∃ D', insertAtPosition (D.detach occ) p pos x = .ok D' ∧ D'.WF ∧ D'.next = D.next ∧
      (∀ m, D'.children m = if m = p then
        (D.children p).take pos ++ x :: (D.children p).drop (pos + 1) else D.children m) ∧
      (∀ m, D'.data m = D.data m) := by
    unfold insertAtPosition
    simp only [hlen]
    rw [show fillGaps (D.detach occ) p 0 = D.detach occ from rfl]
    cases hsib : ((D.detach occ).children p)[pos]? with
    | none =>
      simp only
      obtain ⟨D', e, w, n, -, c, d⟩ := w1.append_at (p := p) (x := x) (by omega) (by omega) hx1 hanc1
      refine ⟨D', e, w, by omega, ?_, ?_⟩
      · intro m
        rw [c]
        by_cases hm : m = p
        · subst hm
          rw [if_pos rfl, if_pos rfl, hc1p]
          rw [hc1p, List.getElem?_append_right (by omega), htl, Nat.sub_self,
            List.getElem?_eq_none_iff] at hsib
          have : (D.children m).drop (pos + 1) = [] := List.length_eq_zero_iff.1 (by omega)
          rw [this, List.append_nil]
        · rw [if_neg hm, if_neg hm, hc1n m hm]
      · intro m; rw [d, d1]
    | some sib =>
      simp only
      obtain ⟨D', e, w, n, -, c, d⟩ := w1.insert_at hsib (by omega) hx1 hanc1
      refine ⟨D', e, w, by omega, ?_, ?_⟩
      · intro m
        rw [c]
        by_cases hm : m = p
        · subst hm
          rw [if_pos rfl, if_pos rfl, hc1p, List.take_left' htl, List.drop_left' htl]
        · rw [if_neg hm, if_neg hm, hc1n m hm]
      · intro m; rw [d, d1]
  obtain ⟨D', e, w, n, c, d⟩ := key
  refine ⟨D', ?_, w, n, hocc, ?_, d⟩
  · simp only [insertAt, slotParent_append hq, bind, Except.bind, displace, hocc, e]
  · intro m; rw [c, List.set_eq_take_drop hlt]

theorem insertAt_app {D : Arena NodeData} {slots : Slots} (h : D.WF) {q : Path}
    {x p pos : Nat} (hq : navigate D slots q = .ok p) (hp : p < D.next)
    (hx : x < D.next) (hxp : D.parent x = none) (hanc : ¬ D.Anc x p) :
    ∃ D', insertAt D slots (q ++ [pos]) x none = .ok (D', slots) ∧ DApp D D' x p pos := by
  have key : ∃ D', insertAtPosition D p pos x = .ok D' ∧ DApp D D' x p pos := by
    unfold insertAtPosition
    simp only
    rw [docFillGaps_eq]
    obtain ⟨w1, n1, p1, c1, d1⟩ := h.fill hp Document.emptyText (pos - (D.children p).length)
    rcases Nat.lt_or_ge pos (D.children p).length with hlt | hge
    · have hz : pos - (D.children p).length = 0 := by omega
      simp only [hz, Arena.fill]
      have hsib : (D.children p)[pos]? = some (D.children p)[pos] := List.getElem?_eq_getElem hlt
      rw [hsib]
      simp only
      obtain ⟨D', e, w, n, -, c, d⟩ := h.insert_at hsib hx hxp hanc
      refine ⟨D', e, w, by omega, ?_, ⟨(D.children p).drop pos, List.suffix_refl _, ?_⟩, ?_⟩
      · intro m hm; rw [c, if_neg hm]
      · rw [c, if_pos rfl, hz]; simp
      · intro m; rw [d, if_neg (by omega)]
    · have hnone : ((Arena.fill Document.emptyText D p (pos - (D.children p).length)).children p)[pos]?
          = none := by
        rw [c1, if_pos rfl, List.getElem?_eq_none_iff]; simp; omega
      rw [hnone]
      simp only
      obtain ⟨D', e, w, n, -, c, d⟩ := h.fill_append hp hx hxp hanc Document.emptyText
        (pos - (D.children p).length)
      refine ⟨D', e, w, n, ?_, ⟨[], List.nil_suffix, ?_⟩, ?_⟩
      · intro m hm; rw [c, if_neg hm]
      · rw [c, if_pos rfl, List.take_of_length_le hge]
      · intro m; rw [d, n]
  obtain ⟨D', e, hd⟩ := key
  refine ⟨D', ?_, hd⟩
  simp only [insertAt, slotParent_append hq, bind, Except.bind, displace, e]

theorem navLoop_append (A : Arena NodeData) (n : Nat) (xs ys : List Nat) :
    navLoop A n (xs ++ ys) = (do let m ← navLoop A n xs; navLoop A m ys) := by
  induction xs generalizing n with
  | nil => rfl
  | cons i is ih =>
    simp only [List.cons_append, navLoop]
    cases (A.children n)[i]? with
    | none => rfl
    | some c => exact ih c

theorem navigate_append {A : Arena NodeData} {slots : Slots} {q : Path} {p : Nat}
    (h : navigate A slots q = .ok p) (r : List Nat) :
    navigate A slots (q ++ r) = navLoop A p r := by
  cases q with
  | nil => simp [navigate] at h
  | cons s rest =>
    simp only [navigate, List.cons_append] at h ⊢
    cases hs : slots s with
    | none => rw [hs] at h; cases h
    | some r0 =>
      rw [hs] at h
      simp only at h ⊢
      rw [navLoop_append, h]; rfl

end Hotmeal
