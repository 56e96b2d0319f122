import Verif.Model.Diff
import Verif.Lemmas.Arena

set_option autoImplicit false
set_option linter.unusedSectionVars false

/-!
# What the matcher preserves
-/

namespace Hotmeal

/-- The two maps and the pair list of a matching agree and describe a partial bijection, and every
pair is in `R`. -/
structure Matching.Good (R : Nat → Nat → Prop) (M : Matching) : Prop where
  getB : ∀ a b, M.getB a = some b ↔ (a, b) ∈ M.pairs
  getA : ∀ a b, M.getA b = some a ↔ (a, b) ∈ M.pairs
  nodup : M.pairs.Nodup
  rel : ∀ a b, (a, b) ∈ M.pairs → R a b

namespace Matching

theorem containsA_false {M : Matching} {a : Nat} : M.containsA a = false ↔ M.getB a = none := by
  unfold containsA getB; cases M.aToB a <;> simp

theorem containsB_false {M : Matching} {b : Nat} : M.containsB b = false ↔ M.getA b = none := by
  unfold containsB getA; cases M.bToA b <;> simp

theorem Good.empty (R : Nat → Nat → Prop) : Good R empty :=
  ⟨fun _ _ => by simp [Matching.empty, Matching.getB], fun _ _ => by simp [Matching.empty, Matching.getA],
    List.nodup_nil, fun _ _ h => by cases h⟩

theorem Good.add {R : Nat → Nat → Prop} {M : Matching} (h : Good R M) {a b : Nat}
    (ha : M.containsA a = false) (hb : M.containsB b = false) (hR : R a b) :
    Good R (M.add a b) := by
  rw [containsA_false] at ha
  rw [containsB_false] at hb
  refine ⟨?_, ?_, ?_, ?_⟩
  · intro x y
    show Arena.upd M.aToB a (some b) x = some y ↔ (x, y) ∈ M.pairs ++ [(a, b)]
    simp only [Arena.upd_apply, List.mem_append, List.mem_singleton, Prod.mk.injEq]
    by_cases e : x = a
    · subst e
      rw [if_pos rfl, Option.some.injEq]
      constructor
      · rintro rfl; exact .inr ⟨rfl, rfl⟩
      · rintro (h1 | ⟨_, rfl⟩)
        · rw [(h.getB _ _).2 h1] at ha; cases ha
        · rfl
    · rw [if_neg e]
      constructor
      · intro h1; exact .inl ((h.getB _ _).1 h1)
      · rintro (h1 | ⟨h1, _⟩)
        · exact (h.getB _ _).2 h1
        · exact absurd h1 e
  · intro x y
    show Arena.upd M.bToA b (some a) y = some x ↔ (x, y) ∈ M.pairs ++ [(a, b)]
    simp only [Arena.upd_apply, List.mem_append, List.mem_singleton, Prod.mk.injEq]
    by_cases e : y = b
    · subst e
      rw [if_pos rfl, Option.some.injEq]
      constructor
      · rintro rfl; exact .inr ⟨rfl, rfl⟩
      · rintro (h1 | ⟨rfl, _⟩)
        · rw [(h.getA _ _).2 h1] at hb; cases hb
        · rfl
    · rw [if_neg e]
      constructor
      · intro h1; exact .inl ((h.getA _ _).1 h1)
      · rintro (h1 | ⟨_, h1⟩)
        · exact (h.getA _ _).2 h1
        · exact absurd h1 e
  · show (M.pairs ++ [(a, b)]).Nodup
    rw [List.nodup_append]
    refine ⟨h.nodup, by simp, ?_⟩
    intro p hp q hq e
    simp only [List.mem_singleton] at hq
    subst e; subst hq
    rw [(h.getB _ _).2 hp] at ha; cases ha
  · intro x y hxy
    rcases List.mem_append.1 hxy with h1 | h1
    · exact h.rel _ _ h1
    · simp only [List.mem_singleton, Prod.mk.injEq] at h1
      rw [h1.1, h1.2]; exact hR

/-- Pairs are only ever added. -/
theorem pairs_add_sub (M : Matching) (a b : Nat) : ∀ p ∈ M.pairs, p ∈ (M.add a b).pairs := by
  intro p hp; exact List.mem_append.2 (.inl hp)

end Matching

variable {H : Type} [DecidableEq H]

/-- What a relation has to satisfy to be preserved by the matcher: `E` holds of pairs matched as
equal subtrees, `C` of candidates of the top-down phase. -/
structure Closed (TA TB : DiffTree H) (R E C : Nat → Nat → Prop) : Prop where
  sub : ∀ a b, E a b → R a b
  subc : ∀ a b p, E a b → p ∈ (TA.children a).zip (TB.children b) → E p.1 p.2
  cand : ∀ a b, C a b → TA.hash a = TB.hash b → TA.kind a = TB.kind b → E a b
  candk : ∀ a b, C a b → TA.kind a = TB.kind b → R a b
  candc : ∀ a b a' b', C a b → a' ∈ TA.children a → b' ∈ TB.children b → C a' b'
  root : C TA.root TB.root
  glob : ∀ a b, a ∈ TA.iter → b ∈ TB.iter → TA.kind a = TB.kind b → R a b
  loc : ∀ a b pa pb, a ∈ TA.iter → R pa pb → TA.parent a = some pa → b ∈ TB.children pb →
    TA.kind a = TB.kind b → R a b

/-- `Good R` under the assumption that all pairs are in `Q`. -/
def Matching.GoodIf (Q R : Nat → Nat → Prop) (M : Matching) : Prop :=
  (∀ p ∈ M.pairs, Q p.1 p.2) → M.Good R

theorem Matching.GoodIf.add {Q R : Nat → Nat → Prop} {M : Matching} (h : M.GoodIf Q R) {a b : Nat}
    (ha : M.containsA a = false) (hb : M.containsB b = false)
    (hR : M.Good R → Q a b → R a b) : (M.add a b).GoodIf Q R := by
  intro hq
  have hM := h fun p hp => hq p (List.mem_append.2 (.inl hp))
  exact hM.add ha hb (hR hM (hq (a, b) (List.mem_append.2 (.inr (List.mem_singleton.2 rfl)))))

/-- The same as `Closed` for a relation that needs to be preserved only as long as all pairs are in
`Q`; it may also use that pairs inside opaque elements are left out. -/
structure ClosedIf (TA TB : DiffTree H) (Q R E C : Nat → Nat → Prop) : Prop where
  sub : ∀ a b, E a b → Q a b → R a b
  subc : ∀ a b p, E a b → TA.isOpaque a = false → TB.isOpaque b = false →
    p ∈ (TA.children a).zip (TB.children b) → E p.1 p.2
  cand : ∀ a b, C a b → TA.hash a = TB.hash b → TA.kind a = TB.kind b → E a b
  candk : ∀ a b, C a b → Q a b → TA.kind a = TB.kind b → R a b
  candc : ∀ a b a' b', C a b → TA.isOpaque a = false → TB.isOpaque b = false →
    a' ∈ TA.children a → b' ∈ TB.children b → C a' b'
  root : C TA.root TB.root
  glob : ∀ a b, a ∈ TA.iter → b ∈ TB.iter → a ∉ opaqueDescendants TA → b ∉ opaqueDescendants TB →
    Q a b → TA.kind a = TB.kind b → R a b
  loc : ∀ a b pa pb, a ∈ TA.iter → a ∉ opaqueDescendants TA → R pa pb → TA.parent a = some pa →
    b ∈ TB.children pb → Q a b → TA.kind a = TB.kind b → R a b

theorem Closed.toIf {TA TB : DiffTree H} {R E C : Nat → Nat → Prop} (cl : Closed TA TB R E C) :
    ClosedIf TA TB (fun _ _ => True) R E C where
  sub := fun a b h _ => cl.sub a b h
  subc := fun a b p h _ _ hp => cl.subc a b p h hp
  cand := cl.cand
  candk := fun a b h _ hk => cl.candk a b h hk
  candc := fun a b a' b' h _ _ ha hb => cl.candc a b a' b' h ha hb
  root := cl.root
  glob := fun a b ha hb _ _ _ hk => cl.glob a b ha hb hk
  loc := fun a b pa pb ha _ hR hp hb _ hk => cl.loc a b pa pb ha hR hp hb hk

theorem foldl_inv {α β : Type} {P : β → Prop} {f : β → α → β} (l : List α) (b : β) (hb : P b)
    (h : ∀ b, P b → ∀ a ∈ l, P (f b a)) : P (l.foldl f b) := by
  induction l generalizing b with
  | nil => exact hb
  | cons a l ih =>
    exact ih (f b a) (h b hb a (by simp)) (fun b hb a ha => h b hb a (List.mem_cons_of_mem _ ha))

theorem orElse_some {α : Type} {x : Option α} {f : Unit → Option α} {y : α}
    (h : x.orElse f = some y) : x = some y ∨ f () = some y := by
  cases x with
  | none => exact .inr h
  | some z => exact .inl h

namespace ClosedIf

variable {TA TB : DiffTree H} {Q R E C : Nat → Nat → Prop} (cl : ClosedIf TA TB Q R E C)
include cl

theorem matchSubtrees (k a b : Nat) (M : Matching) (hM : M.GoodIf Q R) (hE : E a b) :
    (matchSubtrees TA TB k a b M).GoodIf Q R := by
  induction k generalizing a b M with
  | zero => exact hM
  | succ k ih =>
    unfold Hotmeal.matchSubtrees
    split
    · exact hM
    · next h =>
      simp only [Bool.or_eq_true, not_or, Bool.not_eq_true] at h
      have h1 := hM.add h.1 h.2 fun _ hq => cl.sub a b hE hq
      simp only
      split
      · exact h1
      · next ho =>
        simp only [Bool.or_eq_true, not_or, Bool.not_eq_true] at ho
        apply foldl_inv _ _ h1
        intro M hM p hp
        exact ih p.1 p.2 M hM (cl.subc a b p hE ho.1 ho.2 hp)

theorem topDownLoop (cfg : Config) (d k : Nat) (st : List (Nat × Nat)) (M : Matching)
    (hM : M.GoodIf Q R) (hst : ∀ p ∈ st, C p.1 p.2) : (topDownLoop TA TB cfg d k st M).GoodIf Q R := by
  induction k generalizing st M with
  | zero => cases st <;> exact hM
  | succ k ih =>
    cases st with
    | nil => exact hM
    | cons p st =>
      obtain ⟨a, b⟩ := p
      have hab : C a b := hst (a, b) (by simp)
      have hst' : ∀ p ∈ st, C p.1 p.2 := fun p hp => hst p (List.mem_cons_of_mem _ hp)
      unfold Hotmeal.topDownLoop
      split
      · exact ih st M hM hst'
      · next h =>
        simp only [Bool.or_eq_true, not_or, Bool.not_eq_true] at h
        split
        · exact ih st M hM hst'
        · split
          · next hh =>
            simp only [Bool.and_eq_true, beq_iff_eq] at hh
            exact ih st _ (cl.matchSubtrees d a b M hM (cl.cand a b hab hh.1 hh.2)) hst'
          · split
            · refine ih st _ ?_ hst'
              split
              · next hk => exact hM.add h.1 h.2 fun _ hq => cl.candk a b hab hq (by simpa using hk)
              · exact hM
            · next ho =>
              simp only [Bool.or_eq_true, not_or, Bool.not_eq_true] at ho
              refine ih _ M hM ?_
              intro p hp
              rcases List.mem_append.1 hp with hp | hp
              · rw [List.mem_reverse] at hp
                unfold childCandidates at hp
                simp only [List.mem_flatMap, List.mem_map, List.mem_filter] at hp
                obtain ⟨ac, hac, bc, ⟨hbc, _⟩, rfl⟩ := hp
                exact cl.candc a b ac bc hab ho.1 ho.2 hac hbc
              · exact hst' p hp

theorem topDown (cfg : Config) (M : Matching) (hM : M.GoodIf Q R) : (topDown TA TB cfg M).GoodIf Q R :=
  cl.topDownLoop cfg _ _ _ M hM (by
    intro p hp
    simp only [List.mem_singleton] at hp
    subst hp; exact cl.root)

omit cl in
theorem diceBest_mem (cfg : Config) (M : Matching) (a : Nat) (bs : List Nat)
    (best : Option (Nat × Score)) (r : Nat × Score)
    (h : diceBest TA TB cfg M a bs best = some r) :
    best = some r ∨ (r.1 ∈ bs ∧ M.containsB r.1 = false) := by
  induction bs generalizing best with
  | nil => exact .inl h
  | cons b bs ih =>
    have step : ∀ best', (best' = best ∨ ∃ s, best' = some (b, s) ∧ M.containsB b = false) →
        diceBest TA TB cfg M a bs best' = some r →
        best = some r ∨ (r.1 ∈ b :: bs ∧ M.containsB r.1 = false) := by
      intro best' hb h
      rcases ih best' h with h1 | ⟨h1, h2⟩
      · rcases hb with rfl | ⟨s, rfl, hb⟩
        · exact .inl h1
        · cases h1; exact .inr ⟨by simp, hb⟩
      · exact .inr ⟨List.mem_cons_of_mem _ h1, h2⟩
    unfold diceBest at h
    split at h
    · exact step _ (.inl rfl) h
    · next hb =>
      simp only [Bool.not_eq_true] at hb
      split at h
      · exact step _ (.inl rfl) h
      · split at h
        · exact step _ (.inl rfl) h
        · split at h
          · exact step _ (.inl rfl) h
          · simp only at h
            split at h <;> split at h <;>
              first
                | exact step _ (.inl rfl) h
                | exact step _ (.inr ⟨_, rfl, hb⟩) h

omit cl in
theorem pass2Global_mem (cfg : Config) (M : Matching) (a : Nat) (bs : List Nat)
    (best : Option Nat) (r : Nat) (h : pass2Global TA TB cfg M a bs best = some r) :
    best = some r ∨ (r ∈ bs ∧ M.containsB r = false) := by
  induction bs generalizing best with
  | nil => exact .inl h
  | cons b bs ih =>
    have step : ∀ best', (best' = best ∨ best' = some b ∧ M.containsB b = false) →
        pass2Global TA TB cfg M a bs best' = some r →
        best = some r ∨ (r ∈ b :: bs ∧ M.containsB r = false) := by
      intro best' hb h
      rcases ih best' h with h1 | ⟨h1, h2⟩
      · rcases hb with rfl | ⟨rfl, hb⟩
        · exact .inl h1
        · cases h1; exact .inr ⟨by simp, hb⟩
      · exact .inr ⟨List.mem_cons_of_mem _ h1, h2⟩
    unfold pass2Global at h
    split at h
    · exact step _ (.inl rfl) h
    · next hb =>
      simp only [Bool.not_eq_true] at hb
      split at h
      · exact step _ (.inl rfl) h
      · split at h
        · exact step _ (.inl rfl) h
        · split at h
          · cases h; exact .inr ⟨by simp, hb⟩
          · split at h
            · exact step _ (.inr ⟨rfl, hb⟩) h
            · exact step _ (.inl rfl) h

omit cl in
theorem bByKind_mem {M0 : Matching} {opq : List Nat} {k : HKind} {b : Nat}
    (h : b ∈ bByKind TB M0 opq k) : b ∈ TB.iter ∧ b ∉ opq ∧ TB.kind b = k := by
  unfold bByKind at h
  simp only [List.mem_filter, Bool.and_eq_true, beq_iff_eq, Bool.not_eq_true',
    decide_eq_false_iff_not] at h
  exact ⟨h.1, h.2.1.2, h.2.2⟩

theorem pass1Dice (cfg : Config) (M0 : Matching) (M : Matching) (a : Nat)
    (hM : M.GoodIf Q R) (ha : a ∈ TA.iter)
    (ho : a ∉ opaqueDescendants TA) (hf : M.containsA a = false) :
    (pass1Dice TA TB cfg (bByKind TB M0 (opaqueDescendants TB)) M a).GoodIf Q R := by
  unfold Hotmeal.pass1Dice
  split
  · next b s h =>
    rcases diceBest_mem cfg M a _ _ _ h with h1 | ⟨h1, h2⟩
    · cases h1
    · have := bByKind_mem h1
      exact hM.add hf h2 fun _ hq => cl.glob a b ha this.1 ho this.2.1 hq this.2.2.symm
  · split
    · split
      · next b h =>
        have h1 := List.find?_some h
        have h2 := bByKind_mem (List.mem_of_find?_eq_some h)
        simp only [Bool.and_eq_true, Bool.not_eq_true'] at h1
        exact hM.add hf h1.1.1.1 fun _ hq => cl.glob a b ha h2.1 ho h2.2.1 hq h2.2.2.symm
      · exact hM
    · exact hM

theorem pass1Step (cfg : Config) (M0 : Matching) (M : Matching)
    (a : Nat) (hM : M.GoodIf Q R) (ha : a ∈ TA.iter) :
    (pass1Step TA TB cfg (opaqueDescendants TA) (bByKind TB M0 (opaqueDescendants TB)) M a).GoodIf Q R := by
  unfold Hotmeal.pass1Step
  split
  · exact hM
  · next h =>
    simp only [Bool.or_eq_true, not_or, Bool.not_eq_true, decide_eq_true_eq] at h
    split
    · next pb hp =>
      split
      · next b hb =>
        obtain ⟨pa, hpa, hpb⟩ := Option.bind_eq_some_iff.1 hp
        have h2 := List.mem_of_find?_eq_some hb
        simp only [List.mem_filter, Bool.and_eq_true, Bool.not_eq_true', beq_iff_eq] at h2
        exact hM.add h.1 h2.2.1 fun hM hq => cl.loc a b pa pb ha h.2
          (hM.rel _ _ ((hM.getB _ _).1 hpb)) hpa h2.1 hq h2.2.2.symm
      · exact cl.pass1Dice cfg M0 M a hM ha h.2 h.1
    · exact cl.pass1Dice cfg M0 M a hM ha h.2 h.1

omit cl in
theorem pass2Local_mem {cfg : Config} {M : Matching} {a pb b : Nat}
    (h : pass2Local TA TB cfg M a pb = some b) :
    b ∈ TB.children pb ∧ M.containsB b = false ∧ TB.kind b = TA.kind a := by
  unfold pass2Local at h
  simp only at h
  have key : b ∈ (TB.children pb).filter fun b =>
      !M.containsB b && TB.childCount b == 0 && TB.kind b == TA.kind a := by
    rcases orElse_some h with h | h
    · exact List.mem_of_find?_eq_some h
    · rcases orElse_some h with h | h
      · exact List.mem_of_find?_eq_some h
      · exact List.mem_of_find?_eq_some h
  simp only [List.mem_filter, Bool.and_eq_true, Bool.not_eq_true', beq_iff_eq] at key
  exact ⟨key.1, key.2.1.1, key.2.2⟩

theorem pass2Step (cfg : Config) (M0 : Matching) (M : Matching)
    (a : Nat) (hM : M.GoodIf Q R) (ha : a ∈ TA.iter) :
    (pass2Step TA TB cfg (opaqueDescendants TA) (bByKind TB M0 (opaqueDescendants TB)) M a).GoodIf Q R := by
  unfold Hotmeal.pass2Step
  split
  · exact hM
  · next h =>
    simp only [Bool.or_eq_true, not_or, Bool.not_eq_true, decide_eq_true_eq] at h
    split
    · exact hM
    · split
      · next b hb =>
        split at hb
        · next pb hp =>
          obtain ⟨pa, hpa, hpb⟩ := Option.bind_eq_some_iff.1 hp
          obtain ⟨h1, h2, h3⟩ := pass2Local_mem hb
          exact hM.add h.1 h2 fun hM hq => cl.loc a b pa pb ha h.2
            (hM.rel _ _ ((hM.getB _ _).1 hpb)) hpa h1 hq h3.symm
        · rcases pass2Global_mem cfg M a _ _ _ hb with h1 | ⟨h1, h2⟩
          · cases h1
          · have := bByKind_mem h1
            exact hM.add h.1 h2 fun _ hq => cl.glob a b ha this.1 h.2 this.2.1 hq this.2.2.symm
      · exact hM

theorem bottomUp (cfg : Config) (M : Matching) (hM : M.GoodIf Q R) : (bottomUp TA TB cfg M).GoodIf Q R := by
  unfold Hotmeal.bottomUp
  simp only
  apply foldl_inv
  · apply foldl_inv _ _ hM
    intro M1 hM1 a ha
    exact cl.pass1Step cfg M M1 a hM1 ha
  · intro M1 hM1 a ha
    exact cl.pass2Step cfg M M1 a hM1 ha

theorem computeMatching (cfg : Config) : (computeMatching TA TB cfg).GoodIf Q R :=
  cl.bottomUp cfg _ (cl.topDown cfg _ (fun _ => Matching.Good.empty R))

end ClosedIf

theorem Matching.Good.toIf {R : Nat → Nat → Prop} {M : Matching} (h : M.Good R)
    (Q : Nat → Nat → Prop) : M.GoodIf Q R := fun _ => h

namespace Closed

variable {TA TB : DiffTree H} {R E C : Nat → Nat → Prop} (cl : Closed TA TB R E C)
include cl

theorem matchSubtrees (k a b : Nat) (M : Matching) (hM : M.Good R) (hE : E a b) :
    (matchSubtrees TA TB k a b M).Good R :=
  cl.toIf.matchSubtrees k a b M (hM.toIf _) hE fun _ _ => trivial

theorem bottomUp (cfg : Config) (M : Matching) (hM : M.Good R) : (bottomUp TA TB cfg M).Good R :=
  cl.toIf.bottomUp cfg M (hM.toIf _) fun _ _ => trivial

theorem computeMatching (cfg : Config) : (computeMatching TA TB cfg).Good R :=
  cl.toIf.computeMatching cfg fun _ _ => trivial

end Closed

end Hotmeal
