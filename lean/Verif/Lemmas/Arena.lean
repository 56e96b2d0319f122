import Verif.Model.Arena

/-!
# Well-formed arenas: preservation by the operations, fuel sufficiency, traversals
-/

namespace Hotmeal
namespace Arena

variable {α β : Type}

@[simp] theorem upd_same {γ : Type} (f : Nat → γ) (n : Nat) (v : γ) : upd f n v n = v := by
  simp [upd]

theorem upd_ne {γ : Type} (f : Nat → γ) {n m : Nat} (v : γ) (h : m ≠ n) : upd f n v m = f m := by
  simp [upd, h]

theorem upd_apply {γ : Type} (f : Nat → γ) (n m : Nat) (v : γ) :
    upd f n v m = if m = n then v else f m := rfl

/-- Parent and child links agree, child lists have no duplicates, ids are in range and there is
a ranking that strictly increases from parent to child (no cycles). -/
structure WF (A : Arena α) : Prop where
  lt_of_parent : ∀ c p, A.parent c = some p → c < A.next ∧ p < A.next
  mem_iff : ∀ c p, c ∈ A.children p ↔ A.parent c = some p
  nodup : ∀ p, (A.children p).Nodup
  acyclic : ∃ rank : Nat → Nat, ∀ c p, A.parent c = some p → rank p < rank c

/-- `Anc A x n`: `x` is `n` or an ancestor of `n`. -/
inductive Anc (A : Arena α) (x : Nat) : Nat → Prop
  | refl : Anc A x x
  | step {n p : Nat} : A.parent n = some p → Anc A x p → Anc A x n

namespace WF

variable {A : Arena α}

theorem children_ge (h : A.WF) {n : Nat} (hn : A.next ≤ n) : A.children n = [] := by
  apply List.eq_nil_iff_forall_not_mem.2
  intro c hc
  have := (h.lt_of_parent c n ((h.mem_iff c n).1 hc)).2
  omega

theorem parent_ge (h : A.WF) {n : Nat} (hn : A.next ≤ n) : A.parent n = none := by
  cases hp : A.parent n with
  | none => rfl
  | some p => have := (h.lt_of_parent n p hp).1; omega

theorem bounded (h : A.WF) : ∃ r : Nat → Nat, (∀ n, n < A.next → r n < A.next) ∧
    ∀ c p, A.parent c = some p → r p < r c := by
  obtain ⟨rank, hr⟩ := h.acyclic
  refine ⟨fun n => (List.range A.next).countP (fun m => rank m < rank n), ?_, ?_⟩
  · intro n hn
    have h1 : (List.range A.next).countP (fun m => rank m < rank n) ≤
        (List.range A.next).countP (fun m => m ≠ n) := by
      apply List.countP_mono_left
      intro m _ hm
      simp only [decide_eq_true_eq] at hm ⊢
      rintro rfl
      omega
    have h2 : (List.range A.next).countP (fun m => decide (m ≠ n)) < A.next := by
      have hle := List.countP_le_length (l := List.range A.next) (p := fun m => decide (m ≠ n))
      rw [List.length_range] at hle
      apply Nat.lt_of_le_of_ne hle
      intro he
      rw [← List.length_range (n := A.next)] at he
      rw [List.length_range] at he
      have := (List.countP_eq_length (p := fun m => decide (m ≠ n)) (l := List.range A.next)).1
        (by rw [he, List.length_range]) n (List.mem_range.2 hn)
      simp at this
    exact Nat.lt_of_le_of_lt h1 h2
  · intro c p hp
    have hlt := hr c p hp
    have hpl := (h.lt_of_parent c p hp).2
    have : ∀ l : List Nat, p ∈ l →
        l.countP (fun m => rank m < rank p) < l.countP (fun m => rank m < rank c) := by
      intro l
      induction l with
      | nil => simp
      | cons x xs ih =>
        intro hx
        have mono : xs.countP (fun m => rank m < rank p) ≤ xs.countP (fun m => rank m < rank c) := by
          apply List.countP_mono_left
          intro m _ hm
          simp only [decide_eq_true_eq] at hm ⊢
          omega
        rw [List.countP_cons, List.countP_cons]
        by_cases hxp : x = p
        · subst hxp
          simp [hlt]
          omega
        · have hx' : p ∈ xs := by
            rcases List.mem_cons.1 hx with h | h
            · exact absurd h.symm hxp
            · exact h
          have := ih hx'
          by_cases h1 : rank x < rank p
          · have h2 : rank x < rank c := by omega
            simp [h1, h2, this]
          · simp only [h1, decide_false, Bool.false_eq_true, ↓reduceIte]
            split <;> omega
    exact this _ (List.mem_range.2 hpl)

/-- Induction from parents to children. -/
theorem induct_up (h : A.WF) {P : Nat → Prop}
    (step : ∀ n, (∀ p, A.parent n = some p → P p) → P n) (n : Nat) : P n := by
  obtain ⟨rank, hr⟩ := h.acyclic
  generalize hk : rank n = k
  induction k using Nat.strongRecOn generalizing n with
  | ind k ih =>
    apply step
    intro p hp
    exact ih (rank p) (by have := hr n p hp; omega) p rfl

/-- Induction from children to parents. -/
theorem induct_down (h : A.WF) {P : Nat → Prop}
    (step : ∀ n, (∀ c, c ∈ A.children n → P c) → P n) (n : Nat) : P n := by
  obtain ⟨r, hb, hr⟩ := h.bounded
  generalize hk : A.next - r n = k
  induction k using Nat.strongRecOn generalizing n with
  | ind k ih =>
    apply step
    intro c hc
    have hp := (h.mem_iff c n).1 hc
    have h1 := hr c n hp
    have h2 := hb c (h.lt_of_parent c n hp).1
    exact ih (A.next - r c) (by omega) c rfl

theorem foldF_stable (h : A.WF) (alg : Nat → List β → β) {r : Nat → Nat}
    (hb : ∀ n, n < A.next → r n < A.next) (hr : ∀ c p, A.parent c = some p → r p < r c) :
    ∀ k k' n, A.next - r n ≤ k → A.next - r n ≤ k' → A.foldF alg k n = A.foldF alg k' n := by
  intro k
  induction k with
  | zero =>
    intro k' n hk hk'
    have hn : A.next ≤ n := by
      by_cases hn : n < A.next
      · have := hb n hn; omega
      · omega
    cases k' with
    | zero => rfl
    | succ k' => simp [foldF, h.children_ge hn]
  | succ k ih =>
    intro k' n hk hk'
    by_cases hn : n < A.next
    · cases k' with
      | zero => have := hb n hn; omega
      | succ k' =>
        simp only [foldF]
        congr 1
        apply List.map_congr_left
        intro c hc
        have hp := (h.mem_iff c n).1 hc
        have h1 := hr c n hp
        have h2 := hb c (h.lt_of_parent c n hp).1
        exact ih k' c (by omega) (by omega)
    · have hc := h.children_ge (n := n) (by omega)
      cases k' with
      | zero => simp [foldF, hc]
      | succ k' => simp [foldF, hc]

/-- The fuel of `fold` is enough: it satisfies the recursion equation. -/
theorem fold_eq (h : A.WF) (alg : Nat → List β → β) (n : Nat) :
    A.fold alg n = alg n ((A.children n).map (A.fold alg)) := by
  obtain ⟨r, hb, hr⟩ := h.bounded
  unfold fold
  by_cases hn : n < A.next
  · obtain ⟨k, hk⟩ : ∃ k, A.next = k + 1 := ⟨A.next - 1, by omega⟩
    have e : A.foldF alg A.next n = A.foldF alg (k + 1) n := by rw [hk]
    rw [e]
    show alg n ((A.children n).map (A.foldF alg k)) = _
    congr 1
    apply List.map_congr_left
    intro c hc
    have hp := (h.mem_iff c n).1 hc
    have h1 := hr c n hp
    have h2 := hb c (h.lt_of_parent c n hp).1
    exact h.foldF_stable alg hb hr _ _ _ (by omega) (by omega)
  · have hc := h.children_ge (n := n) (by omega)
    rw [hc]
    cases h' : A.next <;> simp [foldF, hc]

theorem descendants_eq (h : A.WF) (n : Nat) :
    A.descendants n = n :: ((A.children n).map A.descendants).flatten := by
  unfold descendants
  rw [h.fold_eq]

end WF

/-! ### Ancestors -/

theorem Anc.trans {A : Arena α} {x y z : Nat} (h1 : A.Anc x y) (h2 : A.Anc y z) : A.Anc x z := by
  induction h2 with
  | refl => exact h1
  | step hp _ ih => exact .step hp ih

theorem Anc.rank_le {A : Arena α} {rank : Nat → Nat}
    (hr : ∀ c p, A.parent c = some p → rank p < rank c) {x n : Nat} (h : A.Anc x n) :
    rank x ≤ rank n := by
  induction h with
  | refl => exact Nat.le_refl _
  | step hp _ ih => have := hr _ _ hp; omega

theorem Anc.cases' {A : Arena α} {x n : Nat} (h : A.Anc x n) :
    x = n ∨ ∃ p, A.parent n = some p ∧ A.Anc x p := by
  cases h with
  | refl => exact .inl rfl
  | step hp h => exact .inr ⟨_, hp, h⟩

theorem WF.anc_antisymm {A : Arena α} (h : A.WF) {x y : Nat} (h1 : A.Anc x y) (h2 : A.Anc y x) :
    x = y := by
  obtain ⟨rank, hr⟩ := h.acyclic
  rcases h1.cases' with rfl | ⟨p, hp, hxp⟩
  · rfl
  · have := Anc.rank_le hr hxp
    have := Anc.rank_le hr h2
    have := hr _ _ hp
    omega

theorem isAncestorOrSelf_sound {A : Arena α} {x : Nat} :
    ∀ k n, A.isAncestorOrSelf x k n = true → A.Anc x n := by
  intro k
  induction k with
  | zero =>
    intro n h
    simp [isAncestorOrSelf] at h
    subst h; exact .refl
  | succ k ih =>
    intro n h
    simp only [isAncestorOrSelf, Bool.or_eq_true, beq_iff_eq] at h
    rcases h with rfl | h
    · exact .refl
    · cases hp : A.parent n with
      | none => simp [hp] at h
      | some p =>
        rw [hp] at h
        exact .step hp (ih p h)

theorem WF.isAncestorOrSelf_iff {A : Arena α} (h : A.WF) (x n : Nat) :
    A.isAncestorOrSelf x A.next n = true ↔ A.Anc x n := by
  constructor
  · exact isAncestorOrSelf_sound _ _
  · obtain ⟨r, hb, hr⟩ := h.bounded
    have key : ∀ k n, r n ≤ k → A.Anc x n → A.isAncestorOrSelf x k n = true := by
      intro k
      induction k with
      | zero =>
        intro n hk ha
        rcases ha.cases' with rfl | ⟨p, hp, _⟩
        · simp [isAncestorOrSelf]
        · have := hr _ _ hp; omega
      | succ k ih =>
        intro n hk ha
        rcases ha.cases' with rfl | ⟨p, hp, hap⟩
        · simp [isAncestorOrSelf]
        · have h1 := hr _ _ hp
          simp only [isAncestorOrSelf, hp, Bool.or_eq_true]
          exact .inr (ih p (by omega) hap)
    intro ha
    by_cases hn : n < A.next
    · exact key _ _ (by have := hb n hn; omega) ha
    · have hpn := h.parent_ge (n := n) (by omega)
      rcases ha.cases' with rfl | ⟨p, hp, _⟩
      · cases h' : A.next <;> simp [isAncestorOrSelf]
      · rw [hpn] at hp; cases hp

/-! ### Preservation of well-formedness -/

theorem WF.newNode {A : Arena α} (h : A.WF) (d : α) : (A.newNode d).1.WF where
  lt_of_parent := by
    intro c p hp
    simp only [Arena.newNode, upd_apply] at hp ⊢
    split at hp
    · cases hp
    · have := h.lt_of_parent c p hp; omega
  mem_iff := by
    intro c p
    simp only [Arena.newNode, upd_apply]
    split
    · next hp =>
      subst hp
      constructor
      · simp
      · intro hc
        split at hc
        · cases hc
        · have := (h.lt_of_parent _ _ hc).2; omega
    · split
      · next hc =>
        subst hc
        constructor
        · intro hm
          have := (h.lt_of_parent _ _ ((h.mem_iff _ _).1 hm)).1; omega
        · simp
      · exact h.mem_iff c p
  nodup := by
    intro p
    simp only [Arena.newNode, upd_apply]
    split
    · simp
    · exact h.nodup p
  acyclic := by
    obtain ⟨rank, hr⟩ := h.acyclic
    refine ⟨rank, ?_⟩
    intro c p hp
    simp only [Arena.newNode, upd_apply] at hp
    split at hp
    · cases hp
    · exact hr c p hp

theorem WF.setData {A : Arena α} (h : A.WF) (n : Nat) (d : α) : (A.setData n d).WF :=
  ⟨h.lt_of_parent, h.mem_iff, h.nodup, h.acyclic⟩

theorem detach_next (A : Arena α) (n : Nat) : (A.detach n).next = A.next := by
  unfold detach; split <;> rfl

theorem detach_data (A : Arena α) (n : Nat) : (A.detach n).data = A.data := by
  unfold detach; split <;> rfl

theorem detach_parent (A : Arena α) (n m : Nat) :
    (A.detach n).parent m = if m = n then none else A.parent m := by
  unfold detach
  split
  · next h => split
              · next e => rw [e, h]
              · rfl
  · rfl

theorem WF.detach_children {A : Arena α} (h : A.WF) (n p : Nat) :
    (A.detach n).children p = (A.children p).filter (· ≠ n) := by
  unfold detach
  split
  · next hn =>
    rw [List.filter_eq_self.2]
    intro a ha
    simp only [decide_eq_true_eq]
    rintro rfl
    rw [(h.mem_iff a p).1 ha] at hn; cases hn
  · next q hq =>
    simp only [upd_apply]
    split
    · next e =>
      subst e
      rw [(h.nodup p).erase_eq_filter]
      apply List.filter_congr
      intro x _
      by_cases hx : x = n <;> simp [hx]
    · next e =>
      rw [List.filter_eq_self.2]
      intro a ha
      simp only [decide_eq_true_eq]
      rintro rfl
      rw [(h.mem_iff a p).1 ha] at hq
      exact e (Option.some.inj hq)

theorem WF.detach {A : Arena α} (h : A.WF) (n : Nat) : (A.detach n).WF where
  lt_of_parent := by
    intro c p hp
    rw [detach_parent] at hp
    rw [detach_next]
    split at hp
    · cases hp
    · exact h.lt_of_parent c p hp
  mem_iff := by
    intro c p
    rw [h.detach_children, detach_parent, List.mem_filter, h.mem_iff]
    by_cases hc : c = n <;> simp [hc]
  nodup := by
    intro p
    rw [h.detach_children]
    exact (h.nodup p).filter _
  acyclic := by
    obtain ⟨rank, hr⟩ := h.acyclic
    refine ⟨rank, ?_⟩
    intro c p hp
    rw [detach_parent] at hp
    split at hp
    · cases hp
    · exact hr c p hp

/-- Linking a parentless node `c` under `p` anywhere in its child list keeps the arena
well-formed, provided `c` is not an ancestor of `p`. -/
theorem WF.link {A : Arena α} (h : A.WF) {p c : Nat} (hp : p < A.next) (hc : c < A.next)
    (hcp : A.parent c = none) (hanc : ¬ A.Anc c p) (l : List Nat) (hl : l.Nodup)
    (hm : ∀ x, x ∈ l ↔ x ∈ A.children p ∨ x = c) :
    ({ A with parent := upd A.parent c (some p), children := upd A.children p l } : Arena α).WF where
  lt_of_parent := by
    intro x q hx
    simp only [upd_apply] at hx ⊢
    split at hx
    · next e => subst e; cases hx; exact ⟨hc, hp⟩
    · exact h.lt_of_parent x q hx
  mem_iff := by
    intro x q
    simp only [upd_apply]
    by_cases hq : q = p
    · subst hq
      simp only [if_true, hm, h.mem_iff]
      by_cases hx : x = c
      · simp [hx]
      · simp [hx]
    · simp only [if_neg hq, h.mem_iff]
      by_cases hx : x = c
      · subst hx
        simp only [if_true, hcp]
        constructor
        · intro h; cases h
        · intro h; exact absurd (Option.some.inj h).symm hq
      · simp [hx]
  nodup := by
    intro q
    simp only [upd_apply]
    split
    · exact hl
    · exact h.nodup q
  acyclic := by
    classical
    obtain ⟨rank, hr⟩ := h.acyclic
    refine ⟨fun n => rank n + if A.Anc c n then rank p + 1 else 0, ?_⟩
    intro x q hx
    simp only [upd_apply] at hx
    split at hx
    · next e =>
      subst e; cases hx
      have : A.Anc x x := .refl
      simp [hanc, this]
      omega
    · next e =>
      have h1 := hr x q hx
      by_cases ha : A.Anc c q
      · have : A.Anc c x := .step hx ha
        simp [ha, this]; omega
      · simp only [ha, if_false]; omega

theorem anc_detach {A : Arena α} {c x n : Nat} (h : (A.detach c).Anc x n) : A.Anc x n := by
  induction h with
  | refl => exact .refl
  | step hp _ ih =>
    rw [detach_parent] at hp
    split at hp
    · cases hp
    · exact .step hp ih

theorem WF.appendRaw {A : Arena α} (h : A.WF) {p c : Nat} (hp : p < A.next) (hc : c < A.next)
    (hanc : ¬ A.Anc c p) : (A.appendRaw p c).WF := by
  unfold Arena.appendRaw
  have hd := h.detach c
  apply hd.link (by rwa [detach_next]) (by rwa [detach_next]) (by simp [detach_parent])
    (fun ha => hanc (anc_detach ha))
  · rw [List.nodup_append]
    refine ⟨hd.nodup p, by simp, ?_⟩
    intro a ha b hb
    simp at hb; subst hb
    rintro rfl
    rw [h.detach_children] at ha
    simp at ha
  · intro x; simp

theorem insBefore_mem {s x : Nat} {l : List Nat} (hs : s ∈ l) (y : Nat) :
    y ∈ insBefore s x l ↔ y ∈ l ∨ y = x := by
  induction l with
  | nil => simp at hs
  | cons z zs ih =>
    simp only [insBefore]
    split
    · simp; grind
    · next hz =>
      have hs' : s ∈ zs := by
        rcases List.mem_cons.1 hs with h | h
        · exact absurd h.symm hz
        · exact h
      simp [ih hs']; grind

theorem insBefore_nodup {s x : Nat} {l : List Nat} (hx : x ∉ l) (hl : l.Nodup) :
    (insBefore s x l).Nodup := by
  induction l with
  | nil => simp [insBefore]
  | cons z zs ih =>
    simp only [insBefore]
    have hz := List.nodup_cons.1 hl
    split
    · rw [List.nodup_cons]; exact ⟨hx, hl⟩
    · rw [List.nodup_cons]
      simp only [List.mem_cons, not_or] at hx
      refine ⟨?_, ih hx.2 hz.2⟩
      by_cases hs : s ∈ zs
      · rw [insBefore_mem hs]
        simp only [not_or]
        exact ⟨hz.1, fun h => hx.1 h.symm⟩
      · have : insBefore s x zs = zs := by
          clear ih hl hx hz
          induction zs with
          | nil => rfl
          | cons w ws ih => simp only [List.mem_cons, not_or] at hs
                            simp [insBefore, Ne.symm hs.1, ih hs.2]
        rw [this]; exact hz.1

theorem insAfter_mem {s x : Nat} {l : List Nat} (hs : s ∈ l) (y : Nat) :
    y ∈ insAfter s x l ↔ y ∈ l ∨ y = x := by
  induction l with
  | nil => simp at hs
  | cons z zs ih =>
    simp only [insAfter]
    split
    · simp; grind
    · next hz =>
      have hs' : s ∈ zs := by
        rcases List.mem_cons.1 hs with h | h
        · exact absurd h.symm hz
        · exact h
      simp [ih hs']; grind

theorem insAfter_nodup {s x : Nat} {l : List Nat} (hx : x ∉ l) (hl : l.Nodup) :
    (insAfter s x l).Nodup := by
  induction l with
  | nil => simp [insAfter]
  | cons z zs ih =>
    simp only [insAfter]
    have hz := List.nodup_cons.1 hl
    simp only [List.mem_cons, not_or] at hx
    split
    · rw [List.nodup_cons, List.nodup_cons]
      refine ⟨?_, hx.2, hz.2⟩
      simp only [List.mem_cons, not_or]
      exact ⟨fun h => hx.1 h.symm, hz.1⟩
    · rw [List.nodup_cons]
      refine ⟨?_, ih hx.2 hz.2⟩
      by_cases hs : s ∈ zs
      · rw [insAfter_mem hs]
        simp only [not_or]
        exact ⟨hz.1, fun h => hx.1 h.symm⟩
      · have : insAfter s x zs = zs := by
          clear ih hl hx hz
          induction zs with
          | nil => rfl
          | cons w ws ih => simp only [List.mem_cons, not_or] at hs
                            simp [insAfter, Ne.symm hs.1, ih hs.2]
        rw [this]; exact hz.1

theorem WF.insertBefore {A A' : Arena α} (h : A.WF) {s x : Nat} (hx : x < A.next)
    (hanc : ¬ A.Anc x s) (he : A.insertBefore s x = .ok A') : A'.WF := by
  unfold Arena.insertBefore at he
  split at he
  · cases he
  · have hd := h.detach x
    simp only at he
    split at he
    · cases he; exact hd
    · next p hp =>
      split at he
      · cases he
      · next hpx =>
        cases he
        have hsm : s ∈ (A.detach x).children p := (hd.mem_iff _ _).2 hp
        have hpl := (hd.lt_of_parent _ _ hp).2
        apply hd.link hpl (by rwa [detach_next]) (by simp [detach_parent])
        · intro ha
          exact hanc (anc_detach (.step hp ha))
        · apply insBefore_nodup _ (hd.nodup p)
          rw [h.detach_children]; simp
        · exact fun y => insBefore_mem hsm y

theorem WF.insertAfter {A A' : Arena α} (h : A.WF) {s x : Nat} (hx : x < A.next)
    (hanc : ¬ A.Anc x s) (he : A.insertAfter s x = .ok A') : A'.WF := by
  unfold Arena.insertAfter at he
  split at he
  · cases he
  · have hd := h.detach x
    simp only at he
    split at he
    · cases he; exact hd
    · next p hp =>
      split at he
      · cases he
      · next hpx =>
        cases he
        have hsm : s ∈ (A.detach x).children p := (hd.mem_iff _ _).2 hp
        have hpl := (hd.lt_of_parent _ _ hp).2
        apply hd.link hpl (by rwa [detach_next]) (by simp [detach_parent])
        · intro ha
          exact hanc (anc_detach (.step hp ha))
        · apply insAfter_nodup _ (hd.nodup p)
          rw [h.detach_children]; simp
        · exact fun y => insAfter_mem hsm y

end Arena
end Hotmeal
