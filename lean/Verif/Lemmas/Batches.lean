import Verif.Model.Batches
import Verif.Props.Mount
import Verif.Props.Slots

set_option autoImplicit false
set_option linter.unusedSectionVars false

/-!
# Slots that hold more than is needed

A patch that can be applied with some slots does the same with slots that hold these and others.
-/

namespace Hotmeal

/-- The slots a patch refers to. -/
def Patch.refers (P : Patch) (k : Nat) : Prop := ∃ path ∈ P.paths, path.head? = some k

/-- What `s` holds in the slots `H` is in `t` as well. -/
def BelowOn (H : Nat → Prop) (s t : Slots) : Prop := ∀ k n, H k → s k = some n → t k = some n

variable {H : Nat → Prop} {s t s' : Slots} {A A' : Arena NodeData}

theorem BelowOn.upd (h : BelowOn H s t) (k : Nat) (v : Option Nat) : BelowOn H (Arena.upd s k v) (Arena.upd t k v) := by
  intro j n hj e
  rw [Arena.upd_apply] at e ⊢
  split
  · next hk => rw [if_pos hk] at e; exact e
  · next hk => rw [if_neg hk] at e; exact h j n hj e

theorem navigate_below (h : BelowOn H s t) {path : Path} (hp : ∀ k, path.head? = some k → H k) {n : Nat}
    (e : navigate A s path = .ok n) : navigate A t path = .ok n := by
  cases path with
  | nil => cases e
  | cons k rest =>
    simp only [navigate] at e ⊢
    cases hk : s k with
    | none => rw [hk] at e; cases e
    | some r => rw [hk] at e; rw [h k r (hp k rfl) hk]; exact e

theorem head_dropLast {path : Path} (h : ¬ path.length < 2) : path.dropLast.head? = path.head? := by
  match path, h with
  | [], h => simp at h
  | [_], h => simp at h
  | a :: b :: l, _ => rfl

theorem slotParent_below (h : BelowOn H s t) {path : Path} (hp : ∀ k, path.head? = some k → H k) {r : Nat × Nat}
    (e : slotParent A s path = .ok r) : slotParent A t path = .ok r := by
  unfold slotParent at e ⊢
  split at e
  · cases e
  · next hl =>
    rw [if_neg hl]
    split at e
    · cases e
    · next pos hpos =>
      obtain ⟨p, h1, e⟩ := res_bind e
      simp only [navigate_below h (by rw [head_dropLast hl]; exact hp) h1]
      exact e

theorem insertAt_below (h : BelowOn H s t) {path : Path} (hp : ∀ k, path.head? = some k → H k) {n : Nat}
    {slot : Option Nat} (e : insertAt A s path n slot = .ok (A', s')) :
    ∃ t', insertAt A t path n slot = .ok (A', t') ∧ BelowOn H s' t' := by
  unfold insertAt at e ⊢
  obtain ⟨⟨p, pos⟩, h1, e⟩ := res_bind e
  rw [slotParent_below h hp h1]
  simp only [bind, Except.bind, displace] at e ⊢
  cases slot with
  | none =>
    simp only at e ⊢
    cases h2 : insertAtPosition A p pos n with
    | error x => rw [h2] at e; cases e
    | ok B => rw [h2] at e; cases e; exact ⟨t, rfl, h⟩
  | some k =>
    simp only at e ⊢
    cases hc : (A.children p)[pos]? with
    | none =>
      simp only [hc] at e ⊢
      cases h2 : insertAtPosition A p pos n with
      | error x => rw [h2] at e; cases e
      | ok B => rw [h2] at e; cases e; exact ⟨t, rfl, h⟩
    | some d =>
      simp only [hc] at e ⊢
      cases h2 : insertAtPosition (A.detach d) p pos n with
      | error x => rw [h2] at e; cases e
      | ok B => rw [h2] at e; cases e; exact ⟨_, rfl, h.upd k (some d)⟩

/-- A patch that is applied with slots `s` is applied with slots `t` that hold what it refers to. -/
theorem applyPatch_below (parse : Str → Document) (h : BelowOn H s t) {P : Patch} (hP : ∀ k, P.refers k → H k)
    (e : applyPatch parse A s P = .ok (A', s')) :
    ∃ t', applyPatch parse A t P = .ok (A', t') ∧ BelowOn H s' t' := by
  have hp : ∀ path ∈ P.paths, ∀ k, path.head? = some k → H k := fun path h1 k h2 => hP k ⟨path, h1, h2⟩
  cases P with
  | insertElement at_ tag attrs cs slot =>
    simp only [applyPatch, Arena.newNode_snd] at e ⊢
    obtain ⟨B, h1, e⟩ := res_bind e
    rw [h1]
    exact insertAt_below h (hp at_ (by simp [Patch.paths])) e
  | insertText at_ x slot => exact insertAt_below h (hp at_ (by simp [Patch.paths])) e
  | insertComment at_ x slot => exact insertAt_below h (hp at_ (by simp [Patch.paths])) e
  | move from_ to_ slot =>
    simp only [applyPatch] at e ⊢
    obtain ⟨n, h1, e⟩ := res_bind e
    rw [navigate_below h (hp from_ (by simp [Patch.paths])) h1]
    simp only [bind, Except.bind] at e ⊢
    split at e
    · next hl =>
      rw [if_pos hl]
      cases h2 : replaceByEmpty A n with
      | error x => rw [h2] at e; cases e
      | ok B => rw [h2] at e; exact insertAt_below h (hp to_ (by simp [Patch.paths])) e
    · next hl =>
      rw [if_neg hl]
      exact insertAt_below h (hp to_ (by simp [Patch.paths])) e
  | remove path =>
    simp only [applyPatch] at e ⊢
    obtain ⟨n, h1, e⟩ := res_bind e
    obtain ⟨B, h2, e⟩ := res_bind e
    cases e
    rw [navigate_below h (hp path (by simp [Patch.paths])) h1]
    simp only [h2, bind, Except.bind]
    exact ⟨t, rfl, h⟩
  | opaqueChanged path content =>
    simp only [applyPatch] at e ⊢
    obtain ⟨n, h1, e⟩ := res_bind e
    obtain ⟨B, h2, e⟩ := res_bind e
    cases e
    rw [navigate_below h (hp path (by simp [Patch.paths])) h1]
    refine ⟨t, ?_, h⟩
    simp only [bind, Except.bind] at h2 ⊢
    rw [h2]
  | setText path x =>
    simp only [applyPatch] at e ⊢
    obtain ⟨n, h1, e⟩ := res_bind e
    rw [navigate_below h (hp path (by simp [Patch.paths])) h1]
    simp only [bind, Except.bind]
    split at e <;> first | (cases e; exact ⟨t, rfl, h⟩) | cases e
  | setAttribute path name value =>
    simp only [applyPatch] at e ⊢
    obtain ⟨n, h1, e⟩ := res_bind e
    rw [navigate_below h (hp path (by simp [Patch.paths])) h1]
    simp only [bind, Except.bind]
    split at e <;> first | (cases e; exact ⟨t, rfl, h⟩) | cases e
  | removeAttribute path name =>
    simp only [applyPatch] at e ⊢
    obtain ⟨n, h1, e⟩ := res_bind e
    rw [navigate_below h (hp path (by simp [Patch.paths])) h1]
    simp only [bind, Except.bind]
    split at e <;> first | (cases e; exact ⟨t, rfl, h⟩) | cases e
  | updateProps path changes =>
    simp only [applyPatch] at e ⊢
    obtain ⟨n, h1, e⟩ := res_bind e
    rw [navigate_below h (hp path (by simp [Patch.paths])) h1]
    simp only [bind, Except.bind]
    split at e <;> first | (cases e; exact ⟨t, rfl, h⟩) | cases e

theorem applyLoop_below (parse : Str → Document) : ∀ (ps : List Patch) {A A' : Arena NodeData} {s s' t : Slots},
    BelowOn H s t → (∀ P ∈ ps, ∀ k, P.refers k → H k) → applyLoop parse A s ps = .ok (A', s') →
    ∃ t', applyLoop parse A t ps = .ok (A', t') ∧ BelowOn H s' t'
  | [], _, _, _, _, _, h, _, e => by cases e; exact ⟨_, rfl, h⟩
  | P :: ps, _, _, _, _, _, h, hP, e => by
    unfold applyLoop at e ⊢
    obtain ⟨⟨B, s2⟩, h1, e⟩ := res_bind e
    obtain ⟨t2, h2, h3⟩ := applyPatch_below parse h (hP P (by simp)) h1
    rw [h2]
    exact applyLoop_below parse ps h3 (fun P h => hP P (by simp [h])) e

/-! ### What stays in the slots -/

theorem insertAt_slots {path : Path} {n : Nat} {slot : Option Nat} (e : insertAt A s path n slot = .ok (A', s'))
    {k : Nat} (hk : slot ≠ some k) : s' k = s k := by
  unfold insertAt at e
  obtain ⟨⟨p, pos⟩, h1, e⟩ := res_bind e
  obtain ⟨B, h2, e⟩ := res_bind e
  cases e
  cases slot with
  | none => rfl
  | some j =>
    simp only [displace]
    split
    · rfl
    · exact Arena.upd_ne _ _ (by rintro rfl; exact hk rfl)

theorem applyPatch_slots (parse : Str → Document) {P : Patch} (e : applyPatch parse A s P = .ok (A', s')) {k : Nat}
    (hk : P.displaced ≠ some k) : s' k = s k := by
  cases P with
  | insertElement at_ tag attrs cs slot =>
    simp only [applyPatch] at e
    obtain ⟨B, h1, e⟩ := res_bind e
    exact insertAt_slots e hk
  | insertText at_ x slot => exact insertAt_slots e hk
  | insertComment at_ x slot => exact insertAt_slots e hk
  | move from_ to_ slot =>
    simp only [applyPatch] at e
    obtain ⟨n, h1, e⟩ := res_bind e
    split at e
    · obtain ⟨B, h2, e⟩ := res_bind e
      exact insertAt_slots e hk
    · exact insertAt_slots e hk
  | remove path =>
    simp only [applyPatch] at e
    obtain ⟨n, h1, e⟩ := res_bind e
    obtain ⟨B, h2, e⟩ := res_bind e
    cases e; rfl
  | opaqueChanged path content =>
    simp only [applyPatch] at e
    obtain ⟨n, h1, e⟩ := res_bind e
    obtain ⟨B, h2, e⟩ := res_bind e
    cases e; rfl
  | setText path x =>
    simp only [applyPatch] at e
    obtain ⟨n, h1, e⟩ := res_bind e
    split at e <;> first | (cases e; rfl) | cases e
  | setAttribute path name value =>
    simp only [applyPatch] at e
    obtain ⟨n, h1, e⟩ := res_bind e
    split at e <;> first | (cases e; rfl) | cases e
  | removeAttribute path name =>
    simp only [applyPatch] at e
    obtain ⟨n, h1, e⟩ := res_bind e
    split at e <;> first | (cases e; rfl) | cases e
  | updateProps path changes =>
    simp only [applyPatch] at e
    obtain ⟨n, h1, e⟩ := res_bind e
    split at e <;> first | (cases e; rfl) | cases e

theorem slotsUsed_cons (P : Patch) (ps : List Patch) (k : Nat) :
    k ∉ slotsUsed (P :: ps) ↔ P.displaced ≠ some k ∧ k ∉ slotsUsed ps := by
  unfold slotsUsed
  cases h : P.displaced with
  | none => simp [h]
  | some j =>
    simp only [List.filterMap_cons, h, List.mem_cons, not_or, ne_eq, Option.some.injEq]
    exact ⟨fun x => ⟨fun y => x.1 y.symm, x.2⟩, fun x => ⟨fun y => x.1 y.symm, x.2⟩⟩

theorem applyLoop_slots (parse : Str → Document) : ∀ (ps : List Patch) {A A' : Arena NodeData} {s s' : Slots},
    applyLoop parse A s ps = .ok (A', s') → ∀ k, k ∉ slotsUsed ps → s' k = s k
  | [], _, _, _, _, e, _, _ => by cases e; rfl
  | P :: ps, _, _, _, _, e, k, hk => by
    obtain ⟨hk1, hk2⟩ := (slotsUsed_cons P ps k).1 hk
    unfold applyLoop at e
    obtain ⟨⟨B, s2⟩, h1, e⟩ := res_bind e
    rw [applyLoop_slots parse ps e k hk2, applyPatch_slots parse h1 hk1]

/-! ### The browser -/

theorem BelowOn.view (h : BelowOn H s t) (root : Nat) : BelowOn H (Wasm.view root s) (Wasm.view root t) := h.upd 0 _

theorem findNode_below (h : BelowOn H s t) {root : Nat} {path : Path} (hp : ∀ k, path.head? = some k → H k) {n : Nat}
    (e : Wasm.findNode root A s path = .ok n) : Wasm.findNode root A t path = .ok n :=
  navigate_below (h.view root) hp e

theorem insertParent_below (h : BelowOn H s t) {root : Nat} {path : Path} (hp : ∀ k, path.head? = some k → H k)
    {r : Nat × Nat} (e : Wasm.insertParent root A s path = .ok r) : Wasm.insertParent root A t path = .ok r := by
  unfold Wasm.insertParent at e ⊢
  split at e
  · cases e
  · next hl =>
    rw [if_neg hl]
    split at e
    · cases e
    · next pos hpos =>
      obtain ⟨p, h1, e⟩ := res_bind e
      simp only [findNode_below h (by rw [head_dropLast hl]; exact hp) h1]
      exact e

theorem w_insertAtPosition_below (h : BelowOn H s t) {p n pos : Nat} {slot : Option Nat}
    (e : Wasm.insertAtPosition A s p n pos slot = .ok (A', s')) :
    ∃ t', Wasm.insertAtPosition A t p n pos slot = .ok (A', t') ∧ BelowOn H s' t' := by
  unfold Wasm.insertAtPosition at e ⊢
  split at e
  · next occ hc =>
    obtain ⟨B, h1, e⟩ := res_bind e
    simp only [h1, bind, Except.bind]
    cases e
    cases slot with
    | none => exact ⟨t, rfl, h⟩
    | some k => exact ⟨_, rfl, h.upd k _⟩
  · next hc =>
    obtain ⟨B, h1, e⟩ := res_bind e
    simp only [h1, bind, Except.bind]
    cases e
    exact ⟨t, rfl, h⟩

theorem w_applyPatch_below (dom : WebDom) {root : Nat} (h : BelowOn H s t) {P : Patch} (hP : ∀ k, P.refers k → H k)
    (e : dom.applyPatch root A s P = .ok (A', s')) :
    ∃ t', dom.applyPatch root A t P = .ok (A', t') ∧ BelowOn H s' t' := by
  have hp : ∀ path ∈ P.paths, ∀ k, path.head? = some k → H k := fun path h1 k h2 => hP k ⟨path, h1, h2⟩
  cases P with
  | insertElement at_ tag attrs cs slot =>
    simp only [WebDom.applyPatch] at e ⊢
    obtain ⟨⟨p, pos⟩, h1, e⟩ := res_bind e
    obtain ⟨⟨B, n⟩, h2, e⟩ := res_bind e
    rw [insertParent_below h (hp at_ (by simp [Patch.paths])) h1]
    simp only [h2, bind, Except.bind]
    exact w_insertAtPosition_below h e
  | insertText at_ x slot =>
    simp only [WebDom.applyPatch, Wasm.applyPatch] at e ⊢
    obtain ⟨⟨p, pos⟩, h1, e⟩ := res_bind e
    rw [insertParent_below h (hp at_ (by simp [Patch.paths])) h1]
    exact w_insertAtPosition_below h e
  | insertComment at_ x slot =>
    simp only [WebDom.applyPatch, Wasm.applyPatch] at e ⊢
    obtain ⟨⟨p, pos⟩, h1, e⟩ := res_bind e
    rw [insertParent_below h (hp at_ (by simp [Patch.paths])) h1]
    exact w_insertAtPosition_below h e
  | move from_ to_ slot =>
    simp only [WebDom.applyPatch, Wasm.applyPatch] at e ⊢
    have hf := hp from_ (by simp [Patch.paths])
    have ht := hp to_ (by simp [Patch.paths])
    split at e
    · next k =>
      cases hk : s k with
      | none => rw [hk] at e; cases e
      | some m =>
        rw [hk] at e
        obtain ⟨x, h1, e⟩ := res_bind e
        cases h1
        obtain ⟨⟨p, pos⟩, h2, e⟩ := res_bind e
        simp only [h k m (hf k rfl) hk]
        simp only [bind, Except.bind]
        rw [insertParent_below (h.upd k none) ht h2]
        exact w_insertAtPosition_below (h.upd k none) e
    · next hne =>
      obtain ⟨m, h3, e⟩ := res_bind e
      obtain ⟨C, h4, e⟩ := res_bind e
      obtain ⟨x, h1, e⟩ := res_bind e
      cases h1
      obtain ⟨⟨p, pos⟩, h2, h5⟩ := res_bind e
      match from_, hne, hf, h3 with
      | [], _, _, h3 => cases h3
      | [k], hne, _, _ => exact absurd rfl (hne k)
      | a :: b :: l, _, hf, h3 =>
        simp only [findNode_below h hf h3, h4, bind, Except.bind]
        rw [insertParent_below h ht h2]
        exact w_insertAtPosition_below h h5
  | remove path =>
    simp only [WebDom.applyPatch, Wasm.applyPatch] at e ⊢
    split at e
    · cases e
    · next k =>
      split at e
      · next h0 =>
        obtain ⟨B, h2, e⟩ := res_bind e
        cases e
        simp only [if_pos h0, h2, bind, Except.bind]
        exact ⟨t, rfl, h⟩
      · next h0 =>
        cases e
        simp only [if_neg h0]
        exact ⟨_, rfl, h.upd k none⟩
    · obtain ⟨n, h1, e⟩ := res_bind e
      obtain ⟨B, h2, e⟩ := res_bind e
      cases e
      rw [findNode_below h (hp _ (by simp [Patch.paths])) h1]
      simp only [h2, bind, Except.bind]
      exact ⟨t, rfl, h⟩
  | opaqueChanged path content =>
    simp only [WebDom.applyPatch, Wasm.applyPatch] at e ⊢
    obtain ⟨n, h1, e⟩ := res_bind e
    obtain ⟨B, h2, e⟩ := res_bind e
    cases e
    rw [findNode_below h (hp path (by simp [Patch.paths])) h1]
    simp only [h2, bind, Except.bind]
    exact ⟨t, rfl, h⟩
  | setText path x =>
    simp only [WebDom.applyPatch, Wasm.applyPatch] at e ⊢
    obtain ⟨n, h1, e⟩ := res_bind e
    rw [findNode_below h (hp path (by simp [Patch.paths])) h1]
    cases e
    exact ⟨t, rfl, h⟩
  | setAttribute path name value =>
    simp only [WebDom.applyPatch] at e ⊢
    obtain ⟨n, h1, e⟩ := res_bind e
    rw [findNode_below h (hp path (by simp [Patch.paths])) h1]
    simp only [bind, Except.bind] at e ⊢
    split at e
    · split at e
      · cases e
      · cases e; exact ⟨t, rfl, h⟩
    · cases e
  | removeAttribute path name =>
    simp only [WebDom.applyPatch] at e ⊢
    obtain ⟨n, h1, e⟩ := res_bind e
    rw [findNode_below h (hp path (by simp [Patch.paths])) h1]
    simp only [bind, Except.bind] at e ⊢
    split at e <;> first | (cases e; exact ⟨t, rfl, h⟩) | cases e
  | updateProps path changes =>
    simp only [WebDom.applyPatch] at e ⊢
    obtain ⟨n, h1, e⟩ := res_bind e
    rw [findNode_below h (hp path (by simp [Patch.paths])) h1]
    simp only [bind, Except.bind] at e ⊢
    generalize (match changes.find? (fun c => decide (c.name = .text)) with
      | some ⟨_, some t⟩ => Wasm.setTextContent A n t
      | _ => A) = B at e ⊢
    split at e
    · split at e
      · cases e
      · cases e; exact ⟨t, rfl, h⟩
    · cases e; exact ⟨t, rfl, h⟩

theorem w_applyLoop_below (dom : WebDom) {root : Nat} : ∀ (ps : List Patch) {A A' : Arena NodeData} {s s' t : Slots},
    BelowOn H s t → (∀ P ∈ ps, ∀ k, P.refers k → H k) → dom.applyLoop root A s ps = .ok (A', s') →
    ∃ t', dom.applyLoop root A t ps = .ok (A', t') ∧ BelowOn H s' t'
  | [], _, _, _, _, _, h, _, e => by cases e; exact ⟨_, rfl, h⟩
  | P :: ps, _, _, _, _, _, h, hP, e => by
    unfold WebDom.applyLoop at e ⊢
    obtain ⟨⟨B, s2⟩, h1, e⟩ := res_bind e
    obtain ⟨t2, h2, h3⟩ := w_applyPatch_below dom h (hP P (by simp)) h1
    rw [h2]
    exact w_applyLoop_below dom ps h3 (fun P h => hP P (by simp [h])) e

theorem w_insertAtPosition_slots {p n pos : Nat} {slot : Option Nat}
    (e : Wasm.insertAtPosition A s p n pos slot = .ok (A', s')) {k : Nat} (hk : slot ≠ some k) : s' k = s k := by
  unfold Wasm.insertAtPosition at e
  split at e
  · obtain ⟨B, h1, e⟩ := res_bind e
    cases e
    cases slot with
    | none => rfl
    | some j => exact Arena.upd_ne _ _ (by rintro rfl; exact hk rfl)
  · obtain ⟨B, h1, e⟩ := res_bind e
    cases e
    rfl

/-- A patch files nothing under a slot it does not name: what is there was there before. -/
theorem w_applyPatch_slots (dom : WebDom) {root : Nat} {P : Patch} (e : dom.applyPatch root A s P = .ok (A', s'))
    {k : Nat} (hk : P.displaced ≠ some k) : s' k = s k ∨ s' k = none := by
  cases P with
  | insertElement at_ tag attrs cs slot =>
    simp only [WebDom.applyPatch] at e
    obtain ⟨⟨p, pos⟩, h1, e⟩ := res_bind e
    obtain ⟨⟨B, n⟩, h2, e⟩ := res_bind e
    exact .inl (w_insertAtPosition_slots e hk)
  | insertText at_ x slot =>
    simp only [WebDom.applyPatch, Wasm.applyPatch] at e
    obtain ⟨⟨p, pos⟩, h1, e⟩ := res_bind e
    exact .inl (w_insertAtPosition_slots e hk)
  | insertComment at_ x slot =>
    simp only [WebDom.applyPatch, Wasm.applyPatch] at e
    obtain ⟨⟨p, pos⟩, h1, e⟩ := res_bind e
    exact .inl (w_insertAtPosition_slots e hk)
  | move from_ to_ slot =>
    simp only [WebDom.applyPatch, Wasm.applyPatch] at e
    split at e
    · next j =>
      cases hj : s j with
      | none => rw [hj] at e; cases e
      | some m =>
        rw [hj] at e
        obtain ⟨x, h1, e⟩ := res_bind e
        cases h1
        obtain ⟨⟨p, pos⟩, h2, e⟩ := res_bind e
        rw [w_insertAtPosition_slots e hk]
        simp only [Arena.upd_apply]
        split
        · exact .inr rfl
        · exact .inl rfl
    · obtain ⟨m, h3, e⟩ := res_bind e
      obtain ⟨C, h4, e⟩ := res_bind e
      obtain ⟨x, h1, e⟩ := res_bind e
      cases h1
      obtain ⟨⟨p, pos⟩, h2, e⟩ := res_bind e
      exact .inl (w_insertAtPosition_slots e hk)
  | remove path =>
    simp only [WebDom.applyPatch, Wasm.applyPatch] at e
    split at e
    · cases e
    · next j =>
      split at e
      · obtain ⟨B, h2, e⟩ := res_bind e
        cases e
        exact .inl rfl
      · cases e
        rw [Arena.upd_apply]
        split
        · exact .inr rfl
        · exact .inl rfl
    · obtain ⟨n, h1, e⟩ := res_bind e
      obtain ⟨B, h2, e⟩ := res_bind e
      cases e
      exact .inl rfl
  | opaqueChanged path content =>
    simp only [WebDom.applyPatch, Wasm.applyPatch] at e
    obtain ⟨n, h1, e⟩ := res_bind e
    obtain ⟨B, h2, e⟩ := res_bind e
    cases e
    exact .inl rfl
  | setText path x =>
    simp only [WebDom.applyPatch, Wasm.applyPatch] at e
    obtain ⟨n, h1, e⟩ := res_bind e
    cases e
    exact .inl rfl
  | setAttribute path name value =>
    simp only [WebDom.applyPatch] at e
    obtain ⟨n, h1, e⟩ := res_bind e
    split at e
    · obtain ⟨B, h2, e⟩ := res_bind e
      cases e; exact .inl rfl
    · cases e
  | removeAttribute path name =>
    simp only [WebDom.applyPatch] at e
    obtain ⟨n, h1, e⟩ := res_bind e
    split at e <;> first | (cases e; exact .inl rfl) | cases e
  | updateProps path changes =>
    simp only [WebDom.applyPatch] at e
    obtain ⟨n, h1, e⟩ := res_bind e
    simp only [bind, Except.bind] at e
    generalize (match changes.find? (fun c => decide (c.name = .text)) with
      | some ⟨_, some t⟩ => Wasm.setTextContent A n t
      | _ => A) = B at e
    split at e
    · split at e
      · cases e
      · cases e; exact .inl rfl
    · cases e; exact .inl rfl

theorem w_applyLoop_slots (dom : WebDom) {root : Nat} : ∀ (ps : List Patch) {A A' : Arena NodeData} {s s' : Slots},
    dom.applyLoop root A s ps = .ok (A', s') → ∀ k, k ∉ slotsUsed ps → s' k = s k ∨ s' k = none
  | [], _, _, _, _, e, _, _ => by cases e; exact .inl rfl
  | P :: ps, _, _, _, _, e, k, hk => by
    obtain ⟨hk1, hk2⟩ := (slotsUsed_cons P ps k).1 hk
    unfold WebDom.applyLoop at e
    obtain ⟨⟨B, s2⟩, h1, e⟩ := res_bind e
    rcases w_applyLoop_slots dom ps e k hk2 with h | h
    · rw [h]; exact w_applyPatch_slots dom h1 hk1
    · exact .inr h

theorem w_applyLoop_append (dom : WebDom) {root : Nat} (ps qs : List Patch) : ∀ (A : Arena NodeData) (s : Slots),
    dom.applyLoop root A s (ps ++ qs) = (dom.applyLoop root A s ps).bind fun r => dom.applyLoop root r.1 r.2 qs := by
  induction ps with
  | nil => intro A s; rfl
  | cons p ps ih =>
    intro A s
    simp only [List.cons_append, WebDom.applyLoop, bind, Except.bind]
    cases dom.applyPatch root A s p with
    | error e => rfl
    | ok r => exact ih r.1 r.2

end Hotmeal
