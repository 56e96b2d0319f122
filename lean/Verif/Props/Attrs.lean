import Verif.Model.EditScript
import Verif.Model.Dom

/-!
# Attribute lists: C13 (attribute half), C14, C15, C19, C34
-/

namespace Hotmeal

/-! ## Specification -/

/-- The map an attribute list denotes: name to value, first occurrence wins. -/
def Attrs.value (a : Attrs) (k : QualName) : Option Str :=
  match a with
  | [] => none
  | (k', v) :: rest => if k' = k then some v else Attrs.value rest k

/-- No attribute name occurs twice (an HTML parser guarantees this). -/
def Attrs.Unique (a : Attrs) : Prop := (a.map Prod.fst).Nodup

instance (a : Attrs) : Decidable a.Unique := inferInstanceAs (Decidable (List.Nodup _))

/-! ## Helper lemmas -/

theorem Attrs.find_eq_value (a : Attrs) (k : QualName) : a.find k = a.value k := by
  induction a with
  | nil => rfl
  | cons kv rest ih =>
    obtain ⟨k', v⟩ := kv
    simp only [Attrs.find, Attrs.value, List.find?] at ih ⊢
    by_cases h : k' = k <;> simp [h, ih]

theorem Attrs.value_isSome (a : Attrs) (k : QualName) :
    (a.value k).isSome ↔ k ∈ a.map Prod.fst := by
  induction a with
  | nil => simp [Attrs.value]
  | cons kv rest ih =>
    obtain ⟨k', v⟩ := kv
    simp only [Attrs.value, List.map_cons, List.mem_cons]
    by_cases h : k' = k
    · simp [h]
    · simp [h, ih, Ne.symm h]

theorem Attrs.value_of_mem {a : Attrs} (hu : a.Unique) {k : QualName} {v : Str}
    (h : (k, v) ∈ a) : a.value k = some v := by
  induction a with
  | nil => simp at h
  | cons kv rest ih =>
    obtain ⟨k', v'⟩ := kv
    simp only [Attrs.Unique, List.map_cons, List.nodup_cons] at hu
    simp only [Attrs.value]
    rcases List.mem_cons.1 h with h | h
    · cases h; simp
    · have hk : k ∈ rest.map Prod.fst := List.mem_map.2 ⟨_, h, rfl⟩
      have : k' ≠ k := by rintro rfl; exact hu.1 hk
      simp [this, ih hu.2 h]

/-- The change list sent in the patch for a computed attribute diff
(hotmeal/src/diff.rs:1583-1592). -/
def toChanges (l : List PropFinal) : List PropChange :=
  l.map fun c => ⟨c.key, match c.value with
    | .same => none
    | .different v => some v⟩

theorem rebuild_diffLoop (old : Attrs) (od : Bool) : ∀ (forced : Bool) (new : Attrs),
    rebuildAttrs old (toChanges (old.diffLoop od forced new)) = new := by
  intro forced new
  induction new generalizing forced with
  | nil => rfl
  | cons kv rest ih =>
    obtain ⟨k, v⟩ := kv
    simp only [Attrs.diffLoop, toChanges, List.map_cons, rebuildAttrs, List.filterMap_cons]
    have ih' := ih (forced || (od && decide (old.find k = some v) && !forced))
    simp only [toChanges, rebuildAttrs] at ih'
    by_cases hv : old.find k = some v
    · by_cases hf : (od && !forced) = true
      · simp only [hv] at ih' ⊢
        simp only [Bool.and_eq_true, Bool.not_eq_true'] at hf
        simp [hf.1, hf.2] at ih' ⊢
        exact ih'
      · have : (od && !forced) = false := by simpa using hf
        have hfind : (List.find? (fun kv => decide (kv.1 = k)) old).map Prod.snd = some v := hv
        simp only [hv, hfind, decide_true, Bool.and_true, this, Bool.false_eq_true,
          not_false_eq_true, and_self, if_true, Option.getD_some] at ih' ⊢
        rw [ih']
    · simp [hv] at ih' ⊢
      exact ih'

theorem diffLoop_keys (old : Attrs) (od : Bool) (forced : Bool) (new : Attrs) :
    (old.diffLoop od forced new).length = new.length := by
  induction new generalizing forced with
  | nil => rfl
  | cons kv rest ih => obtain ⟨k, v⟩ := kv; simp [Attrs.diffLoop, ih]

theorem diffLoop_no_change {old : Attrs} {od forced : Bool} {new : Attrs}
    (h : (old.diffLoop od forced new).any PropFinal.isDifferent = false) :
    (∀ kv ∈ new, old.find kv.1 = some kv.2) ∧ (od = true → forced = false → new = []) := by
  induction new generalizing forced with
  | nil => simp
  | cons kv rest ih =>
    obtain ⟨k, v⟩ := kv
    simp only [Attrs.diffLoop, List.any_cons, Bool.or_eq_false_iff] at h
    obtain ⟨h1, h2⟩ := h
    have hv : old.find k = some v ∧ (od && !forced) = false := by
      by_cases hv : old.find k = some v
      · refine ⟨hv, ?_⟩
        by_cases hf : (od && !forced) = false
        · exact hf
        · simp only [Bool.not_eq_false] at hf
          simp [hv, PropFinal.isDifferent, hf] at h1
      · simp [hv, PropFinal.isDifferent] at h1
    obtain ⟨ih1, _⟩ := ih h2
    refine ⟨?_, ?_⟩
    · intro kv hkv
      rcases List.mem_cons.1 hkv with rfl | h'
      · exact hv.1
      · exact ih1 kv h'
    · intro ho hf
      simp [ho, hf] at hv

/-- Two duplicate-free lists, one included in the other and not shorter: same elements. -/
theorem subset_of_subset_length {γ : Type} [DecidableEq γ] {l m : List γ} (hl : l.Nodup)
    (h : ∀ x ∈ l, x ∈ m) (hlen : m.length ≤ l.length) : ∀ x ∈ m, x ∈ l := by
  induction l generalizing m with
  | nil => intro x hx; simp at hlen; simp [hlen] at hx
  | cons y ys ih =>
    have hy : y ∈ m := h y (by simp)
    rw [List.nodup_cons] at hl
    have := ih (m := m.erase y) hl.2 (by
      intro x hx
      have hne : x ≠ y := by rintro rfl; exact hl.1 hx
      exact (List.mem_erase_of_ne hne).2 (h x (List.mem_cons_of_mem _ hx))) (by
      rw [List.length_erase_of_mem hy]; simp at hlen; omega)
    intro x hx
    by_cases hxy : x = y
    · simp [hxy]
    · exact List.mem_cons_of_mem _ (this x ((List.mem_erase_of_ne hxy).2 hx))

theorem attrs_eq_of_keys_values {a b : Attrs} (hk : a.map Prod.fst = b.map Prod.fst)
    (ha : a.Unique) (hv : ∀ kv ∈ b, a.value kv.1 = some kv.2) : a = b := by
  induction a generalizing b with
  | nil =>
    cases b with
    | nil => rfl
    | cons x xs => simp at hk
  | cons x xs ih =>
    cases b with
    | nil => simp at hk
    | cons y ys =>
      obtain ⟨k, v⟩ := x
      obtain ⟨k', v'⟩ := y
      simp only [List.map_cons, List.cons.injEq] at hk
      obtain ⟨hk1, hk2⟩ := hk
      subst hk1
      have h1 := hv (k, v') (by simp)
      simp [Attrs.value] at h1
      subst h1
      simp only [Attrs.Unique, List.map_cons, List.nodup_cons] at ha
      congr 1
      apply ih hk2 ha.2
      intro kv hkv
      have := hv kv (List.mem_cons_of_mem _ hkv)
      simp only [Attrs.value] at this
      have hne : k ≠ kv.1 := by
        rintro rfl
        apply ha.1
        rw [hk2]
        exact List.mem_map.2 ⟨kv, hkv, rfl⟩
      simpa [hne] using this

/-! ## C14 -/

/-- **C14.** Applying the attribute changes computed from `old` and `new` to an element whose
attributes are `old` gives exactly `new`, names, values and order. -/
theorem C14_update_reproduces_target (old new : Attrs) :
    rebuildAttrs old (toChanges (old.diff new)) = new :=
  rebuild_diffLoop old _ false new

/-- **C14**, at the level of the patch: an `UpdateProps` patch with these changes that reaches an
element with attributes `old` turns it into the same element with attributes `new`, and changes
nothing else. -/
theorem C14_update_patch (parse : Str → Document) (A : Arena NodeData) (slots : Slots)
    (path : Path) (n : Nat) (tag : Str) (old new : Attrs) (ns : Ns)
    (hnav : navigate A slots path = .ok n) (hd : A.data n = ⟨.element tag old, ns⟩) :
    applyPatch parse A slots (.updateProps path (toChanges (old.diff new))) =
      .ok (A.setData n ⟨.element tag new, ns⟩, slots) := by
  simp [applyPatch, hnav, hd, bind, Except.bind, C14_update_reproduces_target]

example : rebuildAttrs [(⟨none, [], "b".toList⟩, "1".toList), (⟨none, [], "a".toList⟩, "2".toList)]
    (toChanges (Attrs.diff
      [(⟨none, [], "b".toList⟩, "1".toList), (⟨none, [], "a".toList⟩, "2".toList)]
      [(⟨none, [], "a".toList⟩, "2".toList), (⟨none, [], "c".toList⟩, "3".toList)])) =
    [(⟨none, [], "a".toList⟩, "2".toList), (⟨none, [], "c".toList⟩, "3".toList)] := by decide

/-! ## C13, attribute half -/

/-- Is an attribute update emitted for this pair of lists? (The condition of
cinereus/src/chawathe.rs:248-262.) -/
def attrUpdateEmitted (old new : Attrs) : Bool :=
  !(old.isEmpty && new.isEmpty) &&
    ((old.diff new).any PropFinal.isDifferent || decide ((old.diff new).length < old.length))

theorem diff_self_no_change_aux (all : Attrs) (hu : all.Unique) (rest : Attrs)
    (hs : ∀ kv ∈ rest, kv ∈ all) (forced : Bool) :
    (all.diffLoop false forced rest).any PropFinal.isDifferent = false := by
  induction rest generalizing forced with
  | nil => rfl
  | cons kv rest ih =>
    obtain ⟨k, v⟩ := kv
    have hv : all.find k = some v := by
      rw [Attrs.find_eq_value]; exact Attrs.value_of_mem hu (hs _ (by simp))
    simp only [Attrs.diffLoop, List.any_cons, Bool.or_eq_false_iff]
    refine ⟨?_, ih (fun kv h => hs kv (List.mem_cons_of_mem _ h)) _⟩
    simp [hv, PropFinal.isDifferent]

/-- **C13 (attributes).** For duplicate-free attribute lists, an update is emitted iff the lists
differ (in names, values or order). -/
theorem C13_attr_update_iff_differ (old new : Attrs) (ho : old.Unique) (hn : new.Unique) :
    attrUpdateEmitted old new = true ↔ old ≠ new := by
  constructor
  · rintro h rfl
    simp only [attrUpdateEmitted, Attrs.diff, diffLoop_keys, bne_self_eq_false,
      diff_self_no_change_aux old ho old (fun _ h => h)] at h
    simp at h
  · intro hne
    by_cases h : attrUpdateEmitted old new = true
    · exact h
    · exfalso
      apply hne
      simp only [attrUpdateEmitted, Bool.and_eq_true, Bool.not_eq_true', Bool.or_eq_true,
        decide_eq_true_eq, not_and, not_or] at h
      by_cases he : (old.isEmpty && new.isEmpty) = true
      · simp at he; rw [he.1, he.2]
      · have he' : (old.isEmpty && new.isEmpty) = false := by simpa using he
        obtain ⟨h1, h2⟩ := h he'
        have h1' : (old.diff new).any PropFinal.isDifferent = false := by simpa using h1
        obtain ⟨hv, hord⟩ := diffLoop_no_change h1'
        simp only [Attrs.diff, diffLoop_keys] at h2
        -- names of new are names of old
        have hsub : ∀ k ∈ new.keys, k ∈ old.keys := by
          intro k hk
          obtain ⟨kv, hkv, rfl⟩ := List.mem_map.1 hk
          have := hv kv hkv
          rw [Attrs.find_eq_value] at this
          exact (Attrs.value_isSome old kv.1).1 (by simp [this])
        have hsup : ∀ k ∈ old.keys, k ∈ new.keys :=
          subset_of_subset_length hn hsub (by simp [Attrs.keys]; omega)
        have e1 : old.keys.filter (fun k => k ∈ new.keys) = old.keys := by
          rw [List.filter_eq_self]; intro k hk; simpa using hsup k hk
        have e2 : new.keys.filter (fun k => k ∈ old.keys) = new.keys := by
          rw [List.filter_eq_self]; intro k hk; simpa using hsub k hk
        have hkeys : old.keys = new.keys := by
          by_cases hkk : old.keys = new.keys
          · exact hkk
          · have hnil := hord (by rw [e1, e2]; simpa using hkk) rfl
            subst hnil
            cases old with
            | nil => rfl
            | cons x xs => exact absurd (hsup x.1 (by simp [Attrs.keys])) (by simp [Attrs.keys])
        exact attrs_eq_of_keys_values hkeys ho
          (fun kv hkv => by rw [← Attrs.find_eq_value]; exact hv kv hkv)

example : Attrs.Unique [(⟨none, [], "b".toList⟩, "1".toList), (⟨none, [], "a".toList⟩, "2".toList)] := by
  decide

/-! ## C15 -/

theorem mem_keySet (a : Attrs) (k : QualName) : k ∈ a.keySet ↔ k ∈ a.keys := by
  simp [Attrs.keySet]

theorem eraseDups_nodup {γ : Type} [DecidableEq γ] (l : List γ) : l.eraseDups.Nodup := by
  induction h : l.length using Nat.strongRecOn generalizing l with
  | ind n ih =>
    cases l with
    | nil => simp
    | cons x xs =>
      rw [List.eraseDups_cons, List.nodup_cons]
      constructor
      · simp
      · apply ih _ _ _ rfl
        have := List.length_filter_le (fun b => !b == x) xs
        simp at h; omega

theorem keySet_nodup (a : Attrs) : a.keySet.Nodup := eraseDups_nodup _

theorem nodup_length_le {γ : Type} [DecidableEq γ] {l m : List γ} (hl : l.Nodup)
    (h : ∀ x ∈ l, x ∈ m) : l.length ≤ m.length := by
  induction l generalizing m with
  | nil => simp
  | cons y ys ih =>
    rw [List.nodup_cons] at hl
    have hy : y ∈ m := h y (by simp)
    have := ih (m := m.erase y) hl.2 (by
      intro x hx
      have hne : x ≠ y := by rintro rfl; exact hl.1 hx
      exact (List.mem_erase_of_ne hne).2 (h x (List.mem_cons_of_mem _ hx)))
    have hpos : 0 < m.length := List.length_pos_of_mem hy
    rw [List.length_erase_of_mem hy] at this
    simp; omega

theorem inter_length_comm {γ : Type} [DecidableEq γ] {l m : List γ} (hl : l.Nodup) (hm : m.Nodup) :
    (l.filter (fun k => k ∈ m)).length = (m.filter (fun k => k ∈ l)).length := by
  apply Nat.le_antisymm
  · apply nodup_length_le (hl.filter _)
    intro x hx; simp at hx ⊢; exact ⟨hx.2, hx.1⟩
  · apply nodup_length_le (hm.filter _)
    intro x hx; simp at hx ⊢; exact ⟨hx.2, hx.1⟩

/-- **C15.** The similarity is a fraction with positive denominator. -/
theorem C15_den_pos (a b : Attrs) : 0 < (a.similarity b).den := by
  unfold Attrs.similarity
  split
  · simp
  · simp only
    split
    · simp
    · simp only; omega

/-- **C15.** The similarity is symmetric. -/
theorem C15_symmetric (a b : Attrs) : a.similarity b = b.similarity a := by
  unfold Attrs.similarity
  rw [Bool.and_comm]
  split
  · rfl
  · simp only
    rw [inter_length_comm (keySet_nodup a) (keySet_nodup b), Nat.add_comm]

/-- **C15.** The similarity is at most one. -/
theorem C15_le_one (a b : Attrs) : (a.similarity b).num ≤ (a.similarity b).den := by
  unfold Attrs.similarity
  split
  · simp
  · simp only
    split
    · simp
    · have h1 := List.length_filter_le (fun k => decide (k ∈ b.keySet)) a.keySet
      have h2 := inter_length_comm (keySet_nodup a) (keySet_nodup b)
      have h3 := List.length_filter_le (fun k => decide (k ∈ a.keySet)) b.keySet
      simp only; omega

/-- **C15.** The similarity is one exactly when both lists have the same set of names. -/
theorem C15_one_iff (a b : Attrs) : (a.similarity b).num = (a.similarity b).den ↔
    ∀ k, (k ∈ a.map Prod.fst ↔ k ∈ b.map Prod.fst) := by
  have key : (∀ k, (k ∈ a.map Prod.fst ↔ k ∈ b.map Prod.fst)) ↔
      (∀ k, k ∈ a.keySet ↔ k ∈ b.keySet) := by
    simp only [mem_keySet]; rfl
  rw [key]
  unfold Attrs.similarity
  split
  · next h =>
    simp at h
    simp [h.1, h.2]
  · simp only
    have h1 := List.length_filter_le (fun k => decide (k ∈ b.keySet)) a.keySet
    have h2 := inter_length_comm (keySet_nodup a) (keySet_nodup b)
    have h3 := List.length_filter_le (fun k => decide (k ∈ a.keySet)) b.keySet
    split
    · next h =>
      have ha : a.keySet = [] := List.length_eq_zero_iff.1 (by omega)
      have hb : b.keySet = [] := List.length_eq_zero_iff.1 (by omega)
      simp [ha, hb]
    · constructor
      · intro he
        simp only at he
        have ea : (a.keySet.filter (fun k => k ∈ b.keySet)).length = a.keySet.length := by omega
        have eb : (b.keySet.filter (fun k => k ∈ a.keySet)).length = b.keySet.length := by omega
        have ga := List.length_filter_eq_length_iff.1 ea
        have gb := List.length_filter_eq_length_iff.1 eb
        intro k
        exact ⟨fun hk => by simpa using ga k hk, fun hk => by simpa using gb k hk⟩
      · intro he
        have ea : (a.keySet.filter (fun k => k ∈ b.keySet)).length = a.keySet.length :=
          List.length_filter_eq_length_iff.2 (fun k hk => by simpa using (he k).1 hk)
        have eb : (b.keySet.filter (fun k => k ∈ a.keySet)).length = b.keySet.length :=
          List.length_filter_eq_length_iff.2 (fun k hk => by simpa using (he k).2 hk)
        simp only; omega

/-- **C15.** The similarity is zero exactly when the lists share no name and are not both
empty. -/
theorem C15_zero_iff (a b : Attrs) : (a.similarity b).num = 0 ↔
    (¬ (a = [] ∧ b = []) ∧ ∀ k, k ∈ a.map Prod.fst → k ∉ b.map Prod.fst) := by
  unfold Attrs.similarity
  split
  · next h => simp at h; simp [h.1, h.2]
  · next h =>
    have hne : ¬ (a = [] ∧ b = []) := by simpa using h
    simp only
    split
    · next h0 =>
      exfalso; apply hne
      have ha : a.keySet = [] := List.length_eq_zero_iff.1 (by omega)
      have hb : b.keySet = [] := List.length_eq_zero_iff.1 (by omega)
      constructor
      · cases a with
        | nil => rfl
        | cons x xs => have := (mem_keySet (x :: xs) x.1).2 (by simp [Attrs.keys]); rw [ha] at this; simp at this
      · cases b with
        | nil => rfl
        | cons x xs => have := (mem_keySet (x :: xs) x.1).2 (by simp [Attrs.keys]); rw [hb] at this; simp at this
    · have h2 : ¬ (2 = 0) := by decide
      simp only [Nat.mul_eq_zero, h2, false_or, List.length_eq_zero_iff,
        List.filter_eq_nil_iff, decide_eq_true_eq]
      constructor
      · intro hh
        refine ⟨hne, fun k hk hk' => hh k ((mem_keySet a k).2 hk) ((mem_keySet b k).2 hk')⟩
      · rintro ⟨_, hh⟩ k hk hk'
        exact hh k ((mem_keySet a k).1 hk) ((mem_keySet b k).1 hk')

example : (Attrs.similarity [(⟨none, [], "a".toList⟩, []), (⟨none, [], "b".toList⟩, [])]
    [(⟨none, [], "b".toList⟩, "x".toList)]) = ⟨2, 3⟩ := by decide

/-! ## C19 -/

namespace Document

/-- **C19.** After `set_attr(k, v)`, reading `k` gives `v`. -/
theorem C19_get_set (a : Attrs) (k : QualName) (v : Str) :
    Attrs.value (setAttrList k v a) k = some v := by
  induction a with
  | nil => simp [setAttrList, Attrs.value]
  | cons kv rest ih =>
    obtain ⟨k', v'⟩ := kv
    simp only [setAttrList]
    split
    · next h => simp [Attrs.value, h]
    · next h => simp [Attrs.value, h, ih]

/-- **C19.** `set_attr(k, v)` leaves every other attribute unchanged. -/
theorem C19_get_set_other (a : Attrs) (k k' : QualName) (v : Str) (h : k' ≠ k) :
    Attrs.value (setAttrList k v a) k' = Attrs.value a k' := by
  induction a with
  | nil => simp [setAttrList, Attrs.value, Ne.symm h]
  | cons kv rest ih =>
    obtain ⟨q, w⟩ := kv
    simp only [setAttrList]
    split
    · next e => simp [Attrs.value, e, Ne.symm h]
    · simp [Attrs.value, ih]

/-- **C19.** An existing name keeps its place, a new one goes last. -/
theorem C19_set_names (a : Attrs) (k : QualName) (v : Str) :
    (setAttrList k v a).map Prod.fst =
      if k ∈ a.map Prod.fst then a.map Prod.fst else a.map Prod.fst ++ [k] := by
  induction a with
  | nil => simp [setAttrList]
  | cons kv rest ih =>
    obtain ⟨q, w⟩ := kv
    simp only [setAttrList]
    split
    · next e => simp [e]
    · next e =>
      simp only [List.map_cons, ih, List.mem_cons, Ne.symm e, false_or]
      split <;> simp

/-- **C19.** Setting keeps names duplicate-free. -/
theorem C19_set_unique (a : Attrs) (k : QualName) (v : Str) (h : a.Unique) :
    (setAttrList k v a).Unique := by
  unfold Attrs.Unique
  rw [C19_set_names]
  split
  · exact h
  · next hk =>
    rw [List.nodup_append]
    refine ⟨h, by simp, ?_⟩
    intro x hx y hy
    simp at hy; subst hy
    rintro rfl; exact hk hx

/-- **C19.** After `remove_attr(k)`, reading `k` gives nothing and every other attribute is
unchanged. -/
theorem C19_get_remove (a : Attrs) (k k' : QualName) :
    Attrs.value (removeAttrList k a) k' = if k' = k then none else Attrs.value a k' := by
  induction a with
  | nil => simp [removeAttrList, Attrs.value]
  | cons kv rest ih =>
    obtain ⟨q, w⟩ := kv
    simp only [removeAttrList, List.filter_cons] at ih ⊢
    by_cases hq : q = k
    · simp only [hq, ne_eq, not_true_eq_false, decide_false, Bool.false_eq_true, if_false]
      rw [ih]
      split
      · rfl
      · next h => simp [Attrs.value, Ne.symm h]
    · simp only [ne_eq, hq, not_false_eq_true, decide_true, if_true, Attrs.value]
      rw [ih]
      split
      · next h => subst h; simp [hq]
      · rfl

/-- **C19.** `remove_attr` keeps the order of the remaining names. -/
theorem C19_remove_names (a : Attrs) (k : QualName) :
    (removeAttrList k a).map Prod.fst = (a.map Prod.fst).filter (· ≠ k) := by
  induction a with
  | nil => rfl
  | cons kv rest ih =>
    simp only [removeAttrList, List.filter_cons, List.map_cons] at ih ⊢
    by_cases hq : kv.1 = k <;> simp [hq] <;> simpa using ih

theorem C19_remove_unique (a : Attrs) (k : QualName) (h : a.Unique) :
    (removeAttrList k a).Unique := by
  unfold Attrs.Unique
  rw [C19_remove_names]
  exact h.filter _

/-- An attribute call. -/
inductive AttrCall
  | set (k : QualName) (v : Str)
  | remove (k : QualName)

/-- Effect of a call on an attribute list. -/
def AttrCall.run (a : Attrs) : AttrCall → Attrs
  | .set k v => setAttrList k v a
  | .remove k => removeAttrList k a

/-- Effect of a call on the abstract map from names to values. -/
def AttrCall.spec (m : QualName → Option Str) : AttrCall → QualName → Option Str
  | .set k v => fun q => if q = k then some v else m q
  | .remove k => fun q => if q = k then none else m q

/-- **C19.** Any sequence of attribute calls behaves like the same calls on an abstract map, and
keeps names duplicate-free. -/
theorem C19_history (calls : List AttrCall) (a : Attrs) (h : a.Unique) :
    Attrs.value (calls.foldl AttrCall.run a) = calls.foldl AttrCall.spec (Attrs.value a) ∧
      (calls.foldl AttrCall.run a).Unique := by
  induction calls generalizing a with
  | nil => exact ⟨rfl, h⟩
  | cons c cs ih =>
    simp only [List.foldl_cons]
    have hs : Attrs.value (c.run a) = c.spec (Attrs.value a) := by
      funext q
      cases c with
      | set k v =>
        simp only [AttrCall.run, AttrCall.spec]
        split
        · next e => rw [e, C19_get_set]
        · next e => exact C19_get_set_other a k q v e
      | remove k =>
        simp only [AttrCall.run, AttrCall.spec]
        rw [C19_get_remove]
    rw [← hs]
    apply ih
    cases c with
    | set k v => exact C19_set_unique a k v h
    | remove k => exact C19_remove_unique a k h

/-- **C19.** `set_attr` and `remove_attr` on the document: on an element they act on its
attribute list only; on any other node they do nothing. Links, other nodes, tag and namespace
are untouched. -/
theorem C19_document (D : Document) (n : Nat) (k : QualName) (v : Str) :
    (∀ tag a ns, D.arena.data n = ⟨.element tag a, ns⟩ →
      D.setAttr n k v = { D with arena := D.arena.setData n ⟨.element tag (setAttrList k v a), ns⟩ } ∧
      D.removeAttr n k = { D with arena := D.arena.setData n ⟨.element tag (removeAttrList k a), ns⟩ }) ∧
    ((∀ tag a, (D.arena.data n).kind ≠ .element tag a) → D.setAttr n k v = D ∧ D.removeAttr n k = D) := by
  constructor
  · intro tag a ns h
    simp [setAttr, removeAttr, h]
  · intro h
    constructor
    · unfold setAttr; split
      · next tag a ns e => exact absurd (by rw [e]) (h tag a)
      · rfl
    · unfold removeAttr; split
      · next tag a ns e => exact absurd (by rw [e]) (h tag a)
      · rfl

example : Attrs.Unique [(⟨none, [], "b".toList⟩, "1".toList)] := by decide

end Document
end Hotmeal
