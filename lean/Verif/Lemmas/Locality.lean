import Verif.Lemmas.RewriteRun
import Verif.Props.Slots

set_option autoImplicit false
set_option linter.unusedSectionVars false

/-!
# Patches that do not lead into some children of the root do not depend on them
-/

namespace Hotmeal

namespace Store

/-- The displaced tree goes to its slot. -/
def displace (σ : Store) (slot : Option Nat) (occ : Option Html) : Store := match slot, occ with
  | some k, some occ => σ.slot k (some occ)
  | _, _ => σ

theorem insert_some {sh : Bool} {σ : Store} {q : Path} {x : Html} {slot : Option Nat} {pos : Nat} {tag : Str}
    {attrs : Attrs} {cs : List Html} (hs0 : slot ≠ some 0) (hl : q.getLast? = some pos)
    (hf : σ.find q.dropLast = some (.element tag attrs cs)) :
    σ.insert sh q x slot =
      some ((σ.write q.dropLast (.element tag attrs (place sh pos x slot.isSome cs))).displace slot cs[pos]?) := by
  unfold insert
  rw [if_neg hs0, hl, hf]
  simp only
  cases slot <;> cases cs[pos]? <;> rfl

theorem insert_inv {sh : Bool} {σ σ' : Store} {q : Path} {x : Html} {slot : Option Nat}
    (e : σ.insert sh q x slot = some σ') : slot ≠ some 0 ∧ ∃ pos tag attrs cs, q.getLast? = some pos ∧
      σ.find q.dropLast = some (.element tag attrs cs) := by
  unfold insert at e
  split at e
  · cases e
  · next hs0 =>
    split at e
    · next pos tag attrs cs hl hf => exact ⟨hs0, pos, tag, attrs, cs, hl, hf⟩
    · cases e

end Store

/-- No path of the patch leads to or into a child of the root with an index in `K`. -/
def Patch.Avoids (K : Nat → Prop) (P : Patch) : Prop := ∀ q ∈ P.paths, ∀ k, K k → ¬ [0, k] <+: q

/-- The patch does not set a text of the root. -/
def Patch.NoRootText : Patch → Prop
  | .setText q _ => q ≠ [0]
  | .updateProps q changes => q = [0] → textChange changes = none
  | .opaqueChanged q _ => q ≠ [0]
  | _ => True

/-- Two stores that differ in the children `K` of the root only: these are `f` in one and `g` in the other. -/
structure Store.But (K : Nat → Prop) (f g : Nat → Html) (σ τ : Store) : Prop where
  rest : ∀ s, s ≠ 0 → σ s = τ s
  zero : ∃ tag attrs cs ds, σ 0 = some (.element tag attrs cs) ∧ τ 0 = some (.element tag attrs ds) ∧
    cs.length = ds.length ∧ (∀ i, ¬ K i → cs[i]? = ds[i]?) ∧ ∀ k, K k → cs[k]? = some (f k) ∧ ds[k]? = some (g k)

namespace Store.But

variable {K : Nat → Prop} {f g : Nat → Html} {σ τ : Store}

theorem find (h : But K f g σ τ) {q : Path} (hq : ∀ k, K k → ¬ [0, k] <+: q) (h0 : q ≠ [0]) : σ.find q = τ.find q := by
  match q with
  | [] => rfl
  | [s] =>
    have : s ≠ 0 := fun e => h0 (by rw [e])
    simp only [Store.find, h.rest s this]
  | s :: i :: q =>
    by_cases hs : s = 0
    · subst hs
      obtain ⟨tag, attrs, cs, ds, e1, e2, _, e4, _⟩ := h.zero
      have hi : ¬ K i := fun hk => hq i hk ⟨q, rfl⟩
      simp only [Store.find, e1, e2, Html.get?, e4 i hi]
    · simp only [Store.find, h.rest s hs]

theorem slot (h : But K f g σ τ) {s : Nat} (hs : s ≠ 0) (t : Option Html) :
    But K f g (σ.slot s t) (τ.slot s t) := by
  refine ⟨fun i hi => ?_, ?_⟩
  · simp only [Store.slot, h.rest i hi]
  · have : ∀ ρ : Store, ρ.slot s t 0 = ρ 0 := fun ρ => by simp [Store.slot, Ne.symm hs]
    rw [this, this]
    exact h.zero

theorem write (h : But K f g σ τ) {q : Path} (hq : ∀ k, K k → ¬ [0, k] <+: q) (h0 : q ≠ [0]) (u : Html) :
    But K f g (σ.write q u) (τ.write q u) := by
  match q with
  | [] => exact h
  | [s] =>
    have : s ≠ 0 := fun e => h0 (by rw [e])
    simp only [Store.write, h.rest s this]
    exact h.slot this _
  | s :: i :: q =>
    by_cases hs : s = 0
    · subst hs
      obtain ⟨tag, attrs, cs, ds, e1, e2, e3, e4, e5⟩ := h.zero
      have hi : ¬ K i := fun hk => hq i hk ⟨q, rfl⟩
      refine ⟨fun s hs => by simp [Store.write, Store.slot, hs, h.rest s hs], tag, attrs,
        cs.modify i (Html.put u q), ds.modify i (Html.put u q), by simp [Store.write, Store.slot, e1, Html.put],
        by simp [Store.write, Store.slot, e2, Html.put], by simp [e3], fun j hj => ?_, fun k hk => ?_⟩
      · rw [List.getElem?_modify, List.getElem?_modify, e4 j hj]
      · have hne : i ≠ k := fun e => hi (e ▸ hk)
        rw [List.getElem?_modify, List.getElem?_modify, (e5 k hk).1, (e5 k hk).2]
        simp [hne]
    · simp only [Store.write, h.rest s hs]
      exact h.slot hs _

/-- Writing the root, with the children as they are. -/
theorem writeRoot (h : But K f g σ τ) {tag : Str} {attrs : Attrs} {cs ds : List Html} (e3 : cs.length = ds.length)
    (e4 : ∀ i, ¬ K i → cs[i]? = ds[i]?) (e5 : ∀ k, K k → cs[k]? = some (f k) ∧ ds[k]? = some (g k)) :
    But K f g (σ.write [0] (.element tag attrs cs)) (τ.write [0] (.element tag attrs ds)) := by
  obtain ⟨tag', attrs', cs', ds', e1, e2, _⟩ := h.zero
  exact ⟨fun s hs => by simp [Store.write, Store.slot, hs, h.rest s hs], tag, attrs, cs, ds,
    by simp [Store.write, Store.slot, e1, Html.put], by simp [Store.write, Store.slot, e2, Html.put], e3, e4, e5⟩

theorem take (h : But K f g σ τ) {q : Path} (hq : ∀ k, K k → ¬ [0, k] <+: q) {t : Html} {σ' : Store}
    (e : σ.take q = some (t, σ')) : ∃ τ', τ.take q = some (t, τ') ∧ But K f g σ' τ' := by
  have h0 : q ≠ [0] := by
    rintro rfl
    unfold Store.take at e
    split at e
    · cases e
    · simp at e
  unfold Store.take at e ⊢
  rw [← h.find hq h0]
  split at e
  · cases e
  · next t' et =>
    match q with
    | [] => cases e
    | [s] =>
      have : s ≠ 0 := fun e => h0 (by rw [e])
      simp only [this, if_false, Option.some.injEq, Prod.mk.injEq] at e
      obtain ⟨rfl, rfl⟩ := e
      simp only [this, if_false]
      exact ⟨_, rfl, h.slot this _⟩
    | s :: i :: q =>
      simp only [Option.some.injEq, Prod.mk.injEq] at e
      obtain ⟨rfl, rfl⟩ := e
      exact ⟨_, rfl, h.write hq h0 _⟩

theorem avoid_dropLast {q : Path} (hq : ∀ k, K k → ¬ [0, k] <+: q) : ∀ k, K k → ¬ [0, k] <+: q.dropLast :=
  fun k hk hp => hq k hk (hp.trans (List.dropLast_prefix q))

theorem insert (h : But K f g σ τ) {q : Path} (hq : ∀ k, K k → ¬ [0, k] <+: q) {x : Html} {slot : Option Nat}
    {σ' : Store} (e : σ.insert false q x slot = some σ') :
    ∃ τ', τ.insert false q x slot = some τ' ∧ But K f g σ' τ' := by
  obtain ⟨hs0, pos, tag, attrs, cs, hl, hf⟩ := Store.insert_inv e
  rw [Store.insert_some hs0 hl hf] at e
  cases e
  have hslot : ∀ {ρ ρ' : Store}, But K f g ρ ρ' → ∀ o : Option Html,
      But K f g (ρ.displace slot o) (ρ'.displace slot o) := by
    intro ρ ρ' hb o
    cases slot with
    | none => exact hb
    | some k =>
      cases o with
      | none => exact hb
      | some occ => exact hb.slot (fun e => hs0 (by rw [e])) _
  have hne : q ≠ [] := by rintro rfl; simp at hl
  have hqe : q.dropLast ++ [pos] = q := by
    have := List.dropLast_append_getLast hne
    rw [List.getLast?_eq_some_getLast hne] at hl
    rw [Option.some.inj hl] at this
    exact this
  by_cases h0 : q.dropLast = [0]
  · have hpos : ¬ K pos := fun hk => hq pos hk (by rw [← hqe, h0]; exact ⟨[], rfl⟩)
    obtain ⟨tag', attrs', cs', ds, e1, e2, e3, e4, e5⟩ := h.zero
    have f1 : σ.find q.dropLast = some (.element tag' attrs' cs') := by
      rw [h0]; simp only [Store.find, e1, Html.get?]
    have f2 : τ.find q.dropLast = some (.element tag' attrs' ds) := by
      rw [h0]; simp only [Store.find, e2, Html.get?]
    rw [hf] at f1
    cases f1
    rw [Store.insert_some hs0 hl f2]
    refine ⟨_, rfl, ?_⟩
    rw [← e4 pos hpos]
    refine hslot ?_ _
    rw [h0]
    unfold Store.place
    rw [← e4 pos hpos]
    cases hc : cs[pos]? with
    | none =>
      simp only
      have hle : cs.length ≤ pos := List.getElem?_eq_none_iff.1 hc
      refine h.writeRoot (by simp [e3]) (fun i hi => ?_) (fun k hk => ?_)
      · rw [e3, List.append_assoc, List.append_assoc]
        by_cases hlt : i < cs.length
        · rw [List.getElem?_append_left hlt, List.getElem?_append_left (e3 ▸ hlt), e4 i hi]
        · rw [List.getElem?_append_right (l₁ := cs) (by omega), List.getElem?_append_right (l₁ := ds) (by omega), e3]
      · obtain ⟨k1, k2⟩ := e5 k hk
        have l1 := (List.getElem?_eq_some_iff.1 k1).1
        have l2 := (List.getElem?_eq_some_iff.1 k2).1
        rw [List.append_assoc, List.append_assoc, List.getElem?_append_left l1, List.getElem?_append_left l2]
        exact ⟨k1, k2⟩
    | some occ =>
      simp only [Bool.false_and, Bool.false_eq_true, if_false]
      refine h.writeRoot (by simp [e3]) (fun i hi => ?_) (fun k hk => ?_)
      · rw [List.getElem?_set, List.getElem?_set, e3, e4 i hi]
      · have : pos ≠ k := fun e => hpos (e ▸ hk)
        rw [List.getElem?_set_ne this, List.getElem?_set_ne this]
        exact e5 k hk
  · rw [h.find (avoid_dropLast hq) h0] at hf
    rw [Store.insert_some hs0 hl hf]
    exact ⟨_, rfl, hslot (h.write (avoid_dropLast hq) h0 _) _⟩

theorem find_root (h : But K f g σ τ) : ∃ tag attrs cs ds, σ.find [0] = some (.element tag attrs cs) ∧
    τ.find [0] = some (.element tag attrs ds) ∧ ∀ tag' attrs',
      But K f g (σ.write [0] (.element tag' attrs' cs)) (τ.write [0] (.element tag' attrs' ds)) := by
  obtain ⟨tag, attrs, cs, ds, e1, e2, e3, e4, e5⟩ := h.zero
  exact ⟨tag, attrs, cs, ds, by simp only [Store.find, e1, Html.get?], by simp only [Store.find, e2, Html.get?],
    fun _ _ => h.writeRoot e3 e4 e5⟩

/-- A patch that avoids the children `K` does the same to both, and leaves these children alone. -/
theorem apply (h : But K f g σ τ) {d : Dialect} (hd : d.shifts = false) {P : Patch} (hP : P.Avoids K)
    (ht : P.NoRootText) {σ' : Store} (e : d.apply σ P = some σ') :
    ∃ τ', d.apply τ P = some τ' ∧ But K f g σ' τ' := by
  cases P with
  | insertElement q tag attrs cs slot =>
    simp only [Dialect.apply, hd] at e ⊢
    exact h.insert (hP _ (by simp [Patch.paths])) e
  | insertText q t slot =>
    simp only [Dialect.apply, hd] at e ⊢
    exact h.insert (hP _ (by simp [Patch.paths])) e
  | insertComment q t slot =>
    simp only [Dialect.apply, hd] at e ⊢
    exact h.insert (hP _ (by simp [Patch.paths])) e
  | remove q =>
    simp only [Dialect.apply, Option.map_eq_some_iff] at e ⊢
    obtain ⟨⟨t, σ1⟩, e, rfl⟩ := e
    obtain ⟨τ', h1, h2⟩ := h.take (hP q (by simp [Patch.paths])) e
    exact ⟨τ', ⟨_, h1, rfl⟩, h2⟩
  | move q r slot =>
    simp only [Dialect.apply, hd] at e ⊢
    split at e
    · cases e
    · next t σ1 e1 =>
      obtain ⟨τ1, h1, h2⟩ := h.take (hP q (by simp [Patch.paths])) e1
      rw [h1]
      exact h2.insert (hP r (by simp [Patch.paths])) e
  | setText q t =>
    have hq := hP q (by simp [Patch.paths])
    simp only [Dialect.apply] at e ⊢
    rw [← h.find hq ht]
    split at e
    · cases e; exact ⟨_, rfl, h.write hq ht _⟩
    · cases e; exact ⟨_, rfl, h.write hq ht _⟩
    · obtain ⟨fn, hfn, rfl⟩ := Option.map_eq_some_iff.1 e
      exact ⟨_, Option.map_eq_some_iff.2 ⟨fn, hfn, rfl⟩, h.write hq ht _⟩
    · cases e
  | setAttribute q n v =>
    have hq := hP q (by simp [Patch.paths])
    simp only [Dialect.apply] at e ⊢
    by_cases h0 : q = [0]
    · subst h0
      obtain ⟨tag, attrs, cs, ds, e1, e2, e3⟩ := h.find_root
      rw [e1] at e; rw [e2]
      cases e
      exact ⟨_, rfl, e3 _ _⟩
    · rw [← h.find hq h0]
      split at e
      · cases e; exact ⟨_, rfl, h.write hq h0 _⟩
      · cases e
  | removeAttribute q n =>
    have hq := hP q (by simp [Patch.paths])
    simp only [Dialect.apply] at e ⊢
    by_cases h0 : q = [0]
    · subst h0
      obtain ⟨tag, attrs, cs, ds, e1, e2, e3⟩ := h.find_root
      rw [e1] at e; rw [e2]
      cases e
      exact ⟨_, rfl, e3 _ _⟩
    · rw [← h.find hq h0]
      split at e
      · cases e; exact ⟨_, rfl, h.write hq h0 _⟩
      · cases e
  | updateProps q changes =>
    have hq := hP q (by simp [Patch.paths])
    simp only [Dialect.apply] at e ⊢
    by_cases h0 : q = [0]
    · have htx := ht h0
      subst h0
      obtain ⟨tag, attrs, cs, ds, e1, e2, e3⟩ := h.find_root
      rw [e1] at e; rw [e2]
      simp only [htx] at e ⊢
      cases hel : d.elementText with
      | none => rw [hel] at e; cases e; exact ⟨_, rfl, e3 _ _⟩
      | some fn => rw [hel] at e; cases e; exact ⟨_, rfl, e3 _ _⟩
    · rw [← h.find hq h0]
      split at e
      · cases e; exact ⟨_, rfl, h.write hq h0 _⟩
      · cases e; exact ⟨_, rfl, h.write hq h0 _⟩
      · cases e; exact ⟨_, rfl, h.write hq h0 _⟩
      · cases e
  | opaqueChanged q c =>
    have hq := hP q (by simp [Patch.paths])
    simp only [Dialect.apply] at e ⊢
    rw [← h.find hq ht]
    split at e
    · cases e; exact ⟨_, rfl, h.write hq ht _⟩
    · cases e

theorem run {d : Dialect} (hd : d.shifts = false) : ∀ (ps : List Patch) {σ τ σ' : Store}, But K f g σ τ →
    (∀ P ∈ ps, P.Avoids K ∧ P.NoRootText) → d.run σ ps = some σ' →
    ∃ τ', d.run τ ps = some τ' ∧ But K f g σ' τ'
  | [], _, τ, _, h, _, e => by cases e; exact ⟨τ, rfl, h⟩
  | P :: ps, σ, τ, σ', h, hP, e => by
    simp only [Dialect.run] at e ⊢
    split at e
    · cases e
    · next σ1 e1 =>
      obtain ⟨τ1, f1, f2⟩ := h.apply hd (hP P List.mem_cons_self).1 (hP P List.mem_cons_self).2 e1
      rw [f1]
      exact run hd ps f2 (fun Q hQ => hP Q (List.mem_cons_of_mem _ hQ)) e

end Store.But

/-! ### The patches of `diff` set no text of the root -/

/-- Slot 0 holds an element. -/
def Store.Rooted (σ : Store) : Prop := ∃ tag attrs cs, σ 0 = some (.element tag attrs cs)

namespace Store.Rooted

variable {σ : Store}

theorem write (h : σ.Rooted) {q : Path} {u : Html} (hu : q = [0] → ∃ tag attrs cs, u = .element tag attrs cs) :
    (σ.write q u).Rooted := by
  obtain ⟨tag, attrs, cs, e⟩ := h
  match q with
  | [] => exact ⟨tag, attrs, cs, e⟩
  | s :: q =>
    by_cases hs : s = 0
    · subst hs
      cases q with
      | nil =>
        obtain ⟨tag', attrs', cs', rfl⟩ := hu rfl
        exact ⟨tag', attrs', cs', by simp [Store.write, Store.slot, e, Html.put]⟩
      | cons i q => exact ⟨tag, attrs, _, by simp only [Store.write, Store.slot, e, if_true, Option.map_some, Html.put]; rfl⟩
    · exact ⟨tag, attrs, cs, by simp [Store.write, Store.slot, Ne.symm hs, e]⟩

theorem slot (h : σ.Rooted) {s : Nat} (hs : s ≠ 0) (t : Option Html) : (σ.slot s t).Rooted := by
  obtain ⟨tag, attrs, cs, e⟩ := h
  exact ⟨tag, attrs, cs, by simp [Store.slot, Ne.symm hs, e]⟩

theorem take (h : σ.Rooted) {q : Path} {t : Html} {σ' : Store} (e : σ.take q = some (t, σ')) : σ'.Rooted := by
  unfold Store.take at e
  split at e
  · cases e
  · match q with
    | [] => cases e
    | [s] =>
      simp only at e
      split at e
      · cases e
      · next hs => cases e; exact h.slot hs _
    | s :: i :: q => cases e; exact h.write (fun e => by cases e)

theorem insert (h : σ.Rooted) {sh : Bool} {q : Path} {x : Html} {slot : Option Nat} {σ' : Store}
    (e : σ.insert sh q x slot = some σ') : σ'.Rooted := by
  obtain ⟨hs0, pos, tag, attrs, cs, hl, hf⟩ := Store.insert_inv e
  rw [Store.insert_some hs0 hl hf] at e
  cases e
  have h1 := h.write (q := q.dropLast) (u := .element tag attrs (Store.place sh pos x slot.isSome cs))
    (fun _ => ⟨_, _, _, rfl⟩)
  cases slot with
  | none => exact h1
  | some k =>
    cases cs[pos]? with
    | none => exact h1
    | some occ => exact h1.slot (fun e => hs0 (by rw [e])) _

theorem apply (h : σ.Rooted) {d : Dialect} {P : Patch} {σ' : Store} (e : d.apply σ P = some σ') : σ'.Rooted := by
  have hfind : ∀ {q : Path} {t : Html}, σ.find q = some t → q = [0] → ∃ tag attrs cs, t = .element tag attrs cs := by
    rintro q t ht rfl
    obtain ⟨tag, attrs, cs, e⟩ := h
    simp only [Store.find, e, Html.get?] at ht
    cases ht
    exact ⟨_, _, _, rfl⟩
  cases P with
  | insertElement q tag attrs cs slot => exact h.insert e
  | insertText q t slot => exact h.insert e
  | insertComment q t slot => exact h.insert e
  | remove q =>
    simp only [Dialect.apply, Option.map_eq_some_iff] at e
    obtain ⟨⟨t, σ1⟩, e, rfl⟩ := e
    exact h.take e
  | move q r slot =>
    simp only [Dialect.apply] at e
    split at e
    · cases e
    · next t σ1 e1 => exact (h.take e1).insert e
  | setText q t =>
    simp only [Dialect.apply] at e
    split at e
    · next ht => cases e; exact h.write fun hq => absurd (hfind ht hq) (by rintro ⟨_, _, _, h⟩; cases h)
    · next ht => cases e; exact h.write fun hq => absurd (hfind ht hq) (by rintro ⟨_, _, _, h⟩; cases h)
    · obtain ⟨fn, hfn, rfl⟩ := Option.map_eq_some_iff.1 e; exact h.write fun _ => ⟨_, _, _, rfl⟩
    · cases e
  | setAttribute q n v =>
    simp only [Dialect.apply] at e
    split at e
    · cases e; exact h.write fun _ => ⟨_, _, _, rfl⟩
    · cases e
  | removeAttribute q n =>
    simp only [Dialect.apply] at e
    split at e
    · cases e; exact h.write fun _ => ⟨_, _, _, rfl⟩
    · cases e
  | updateProps q changes =>
    simp only [Dialect.apply] at e
    split at e
    · next ht => cases e; exact h.write fun hq => absurd (hfind ht hq) (by rintro ⟨_, _, _, h⟩; cases h)
    · next ht => cases e; exact h.write fun hq => absurd (hfind ht hq) (by rintro ⟨_, _, _, h⟩; cases h)
    · cases e; exact h.write fun _ => ⟨_, _, _, rfl⟩
    · cases e
  | opaqueChanged q c =>
    simp only [Dialect.apply] at e
    split at e
    · cases e; exact h.write fun _ => ⟨_, _, _, rfl⟩
    · cases e

end Store.Rooted

/-- Neutral patches that go through in a dialect in which elements have no text set no text of the root. -/
theorem Dialect.Neutral.noRootText {d : Dialect} (hd : d.elementText = none) {N : QualName → Prop} :
    ∀ {ps : List Patch} {σ σ' : Store}, σ.Rooted → d.Neutral N σ ps → d.run σ ps = some σ' → ∀ P ∈ ps, P.NoRootText
  | [], _, _, _, _, _ => fun _ h => by cases h
  | P :: ps, σ, σ', h, hn, e => by
    simp only [Dialect.run] at e
    split at e
    · cases e
    · next σ1 e1 =>
      intro Q hQ
      rcases List.mem_cons.1 hQ with rfl | hQ
      · obtain ⟨tag, attrs, cs, e0⟩ := h
        have hf : σ.find [0] = some (.element tag attrs cs) := by simp only [Store.find, e0, Html.get?]
        cases Q with
        | setText q t =>
          rintro rfl
          simp only [Dialect.apply, hf, hd, Option.map_none] at e1
          cases e1
        | updateProps q changes =>
          rintro rfl
          exact hn.1.2.2 tag attrs cs hf
        | opaqueChanged q c => exact hn.1.elim
        | _ => trivial
      · exact Neutral.noRootText hd (h.apply e1) (hn.2 σ1 e1) e Q hQ

end Hotmeal
