import Verif.Lemmas.MirrorHtml

set_option autoImplicit false

/-!
# The native applier with slots cleared after use

`Document::apply_patch` never clears a slot, the browser client does. The native applier that
clears slots after use is also lawful, so generated patches never depend on an old slot.
-/

namespace Hotmeal

/-- Clear the slot that a patch takes its node from. -/
def forget (slots : Slots) (P : Patch) (s' : Slots) : Slots := match P with
  | .move [k] _ _ => if k = 0 then s' else fun i => if i = k ∧ s' i = slots i then none else s' i
  | .remove [k] => if k = 0 then s' else Arena.upd s' k none
  | _ => s'

/-- `apply_patch` followed by `forget`. -/
def forgetStep (parse : Str → Document) : StepFn := fun D slots P =>
  match applyPatch parse D slots P with
  | .ok (D', s') => .ok (D', forget slots P s')
  | .error e => .error e

/-- Every slot of `s` is also in `t`, with the same content. -/
def SlotsLe (s t : Slots) : Prop := ∀ k n, s k = some n → t k = some n

theorem SlotsLe.refl (s : Slots) : SlotsLe s s := fun _ _ h => h

theorem forget_le (slots : Slots) (P : Patch) (s' : Slots) : SlotsLe (forget slots P s') s' := by
  intro k n h
  unfold forget at h
  split at h
  · split at h
    · exact h
    · simp only at h
      split at h
      · cases h
      · exact h
  · split at h
    · exact h
    · rw [Arena.upd_apply] at h
      split at h
      · cases h
      · exact h
  · exact h

theorem SlotsLe.upd {s t : Slots} (h : SlotsLe s t) (k : Nat) (v : Option Nat) :
    SlotsLe (Arena.upd s k v) (Arena.upd t k v) := by
  intro i n hi
  rw [Arena.upd_apply] at hi ⊢
  split
  · next e => rw [if_pos e] at hi; exact hi
  · next e => rw [if_neg e] at hi; exact h i n hi

theorem SlotsLe.trans {s t u : Slots} (h : SlotsLe s t) (h' : SlotsLe t u) : SlotsLe s u :=
  fun k n e => h' k n (h k n e)

theorem navigate_mono {D : Arena NodeData} {s t : Slots} (h : SlotsLe s t) {q : Path} {n : Nat}
    (hq : navigate D s q = .ok n) : navigate D t q = .ok n := by
  cases q with
  | nil => simp [navigate] at hq
  | cons k rest =>
    simp only [navigate] at hq ⊢
    cases e : s k with
    | none => rw [e] at hq; cases hq
    | some m =>
      rw [e] at hq
      rw [h k m e]; exact hq

theorem slotParent_mono {D : Arena NodeData} {s t : Slots} (h : SlotsLe s t) {q : Path}
    {r : Nat × Nat} (hq : slotParent D s q = .ok r) : slotParent D t q = .ok r := by
  unfold slotParent at hq ⊢
  split
  · next e => rw [if_pos e] at hq; exact hq
  · next e =>
    rw [if_neg e] at hq
    split
    · next e' => rw [e'] at hq; exact hq
    · next pos e' =>
      rw [e'] at hq
      simp only [bind, Except.bind] at hq ⊢
      cases e2 : navigate D s q.dropLast with
      | error => rw [e2] at hq; cases hq
      | ok n => rw [e2] at hq; rw [navigate_mono h e2]; exact hq

theorem insertAt_mono {D D' : Arena NodeData} {s t s' : Slots} (h : SlotsLe s t) {q : Path}
    {n : Nat} {slot : Option Nat} (hq : insertAt D s q n slot = .ok (D', s')) :
    ∃ t', insertAt D t q n slot = .ok (D', t') ∧ SlotsLe s' t' := by
  unfold insertAt at hq ⊢
  simp only [bind, Except.bind] at hq ⊢
  cases e : slotParent D s q with
  | error => rw [e] at hq; cases hq
  | ok r =>
    obtain ⟨p, pos⟩ := r
    rw [e] at hq
    rw [slotParent_mono h e]
    simp only at hq ⊢
    have hd : (displace D s p pos slot).1 = (displace D t p pos slot).1 ∧
        SlotsLe (displace D s p pos slot).2 (displace D t p pos slot).2 := by
      unfold displace
      split
      · exact ⟨rfl, h⟩
      · split
        · exact ⟨rfl, h⟩
        · exact ⟨rfl, h.upd _ _⟩
    rw [← hd.1]
    cases e2 : insertAtPosition (displace D s p pos slot).1 p pos n with
    | error => rw [e2] at hq; cases hq
    | ok A =>
      rw [e2] at hq
      simp only [Except.ok.injEq, Prod.mk.injEq] at hq ⊢
      exact ⟨_, ⟨hq.1, rfl⟩, by rw [← hq.2]; exact hd.2⟩

/-- More slots give the same document. -/
theorem applyPatch_mono (parse : Str → Document) {D D' : Arena NodeData} {s t s' : Slots}
    (h : SlotsLe s t) {P : Patch} (hq : applyPatch parse D s P = .ok (D', s')) :
    ∃ t', applyPatch parse D t P = .ok (D', t') ∧ SlotsLe s' t' := by
  have nav : ∀ {β : Type} {q : Path} {F : Nat → Res β} {r : β},
      (navigate D s q >>= F) = .ok r → ∃ n, navigate D s q = .ok n ∧ navigate D t q = .ok n ∧
        F n = .ok r := by
    intro β q F r e
    cases e2 : navigate D s q with
    | error => rw [e2] at e; cases e
    | ok n => rw [e2] at e; exact ⟨n, rfl, navigate_mono h e2, e⟩
  cases P with
  | insertElement at_ tag attrs children slot =>
    simp only [applyPatch, bind, Except.bind] at hq ⊢
    cases e : appendInsertContents (D.newNode ⟨.element tag attrs, .html⟩).1
      (D.newNode ⟨.element tag attrs, .html⟩).2 children with
    | error => rw [e] at hq; cases hq
    | ok A => rw [e] at hq; exact insertAt_mono h hq
  | insertText at_ tx slot => exact insertAt_mono h hq
  | insertComment at_ tx slot => exact insertAt_mono h hq
  | remove path =>
    simp only [applyPatch] at hq ⊢
    obtain ⟨n, e1, e2, e3⟩ := nav hq
    simp only [e2, bind, Except.bind] at e3 ⊢
    cases e : replaceByEmpty D n with
    | error => rw [e] at e3; cases e3
    | ok A =>
      rw [e] at e3
      simp only [Except.ok.injEq, Prod.mk.injEq] at e3 ⊢
      exact ⟨t, ⟨e3.1, rfl⟩, by rw [← e3.2]; exact h⟩
  | setText path tx =>
    simp only [applyPatch] at hq ⊢
    obtain ⟨n, e1, e2, e3⟩ := nav hq
    simp only [e2, bind, Except.bind] at e3 ⊢
    split at e3 <;> first | cases e3 | skip
    · exact ⟨t, rfl, h⟩
    · exact ⟨t, rfl, h⟩
  | setAttribute path name value =>
    simp only [applyPatch] at hq ⊢
    obtain ⟨n, e1, e2, e3⟩ := nav hq
    simp only [e2, bind, Except.bind] at e3 ⊢
    split at e3 <;> first | cases e3 | skip
    exact ⟨t, rfl, h⟩
  | removeAttribute path name =>
    simp only [applyPatch] at hq ⊢
    obtain ⟨n, e1, e2, e3⟩ := nav hq
    simp only [e2, bind, Except.bind] at e3 ⊢
    split at e3 <;> first | cases e3 | skip
    exact ⟨t, rfl, h⟩
  | move from_ to slot =>
    simp only [applyPatch] at hq ⊢
    obtain ⟨n, e1, e2, e3⟩ := nav hq
    simp only [e2, bind, Except.bind] at e3 ⊢
    by_cases hl : 1 < from_.length
    · simp only [if_pos hl] at e3 ⊢
      cases e : replaceByEmpty D n with
      | error => rw [e] at e3; cases e3
      | ok A => rw [e] at e3; exact insertAt_mono h e3
    · simp only [if_neg hl] at e3 ⊢
      exact insertAt_mono h e3
  | updateProps path changes =>
    simp only [applyPatch] at hq ⊢
    obtain ⟨n, e1, e2, e3⟩ := nav hq
    simp only [e2, bind, Except.bind] at e3 ⊢
    split at e3 <;> cases e3 <;> exact ⟨t, rfl, h⟩
  | opaqueChanged path content =>
    simp only [applyPatch] at hq ⊢
    obtain ⟨n, e1, e2, e3⟩ := nav hq
    simp only [e2, bind, Except.bind] at e3 ⊢
    split
    · next e => rw [e] at e3; cases e3
    · next A e =>
      rw [e] at e3
      simp only [Except.ok.injEq, Prod.mk.injEq] at e3 ⊢
      exact ⟨t, ⟨e3.1, rfl⟩, by rw [← e3.2]; exact h⟩

theorem forgetStep_ok {parse : Str → Document} {D D' : Arena NodeData} {s s' : Slots} {P : Patch}
    (h : forgetStep parse D s P = .ok (D', s')) :
    ∃ s'', applyPatch parse D s P = .ok (D', s'') ∧ SlotsLe s' s'' := by
  unfold forgetStep at h
  split at h
  · next D'' s'' e =>
    cases h
    exact ⟨s'', e, forget_le _ _ _⟩
  · cases h

/-- The native applier follows the forgetting one. -/
theorem runPatches_forget (parse : Str → Document) {D D' : Arena NodeData} {s t s' : Slots}
    {ps : List Patch} (hle : SlotsLe s t) (h : runPatches (forgetStep parse) D s ps = .ok (D', s')) :
    ∃ t', runPatches (applyPatch parse) D t ps = .ok (D', t') ∧ SlotsLe s' t' := by
  induction ps generalizing D s t with
  | nil => cases h; exact ⟨t, rfl, hle⟩
  | cons P ps ih =>
    simp only [runPatches, bind, Except.bind] at h ⊢
    cases e : forgetStep parse D s P with
    | error => rw [e] at h; cases h
    | ok r =>
      obtain ⟨D1, s1⟩ := r
      rw [e] at h
      obtain ⟨s2, e1, hle1⟩ := forgetStep_ok e
      obtain ⟨t1, e2, hle2⟩ := applyPatch_mono parse hle e1
      rw [e2]
      exact ih (hle1.trans hle2) h

theorem lawful_forget (parse : Str → Document) (root : Nat) : Lawful root (forgetStep parse) where
  setText_text := by
    intro D slots q n s ns t h0 hq hd
    simp only [forgetStep, (lawful_native parse root).setText_text D slots q n s ns t h0 hq hd,
      forget]
  setText_comment := by
    intro D slots q n s ns t h0 hq hd
    simp only [forgetStep, (lawful_native parse root).setText_comment D slots q n s ns t h0 hq hd,
      forget]
  updateProps := by
    intro D slots q n tag attrs ns changes h0 hq hd h1 h2 h3
    simp only [forgetStep, (lawful_native parse root).updateProps D slots q n tag attrs ns changes
      h0 hq hd h1 h2 h3, forget]
  remove := by
    intro D slots q n p h0 hw hq hl hp
    obtain ⟨D', e, hr⟩ := (lawful_native parse root).remove D slots q n p h0 hw hq hl hp
    refine ⟨D', ?_, hr⟩
    simp only [forgetStep, e]
    match q, hl with
    | a :: b :: c, _ => rfl
  removeFree := by
    intro D slots k n h0 hw hk hs hn hp
    refine ⟨_, Arena.upd slots k none, ?_, .inr rfl, .inr rfl⟩
    simp only [forgetStep, applyPatch, navigate, hs, navLoop, bind, Except.bind,
      replaceByEmpty_free hw hn hp, forget, if_neg hk]
  insert := by
    intro D slots q nk cs p h0 hw hnk hcs hq he hp
    obtain ⟨D1, hc, hf, hns, h1, h2⟩ := (lawful_native parse root).insert D slots q nk cs p h0 hw hnk
      hcs hq he hp
    refine ⟨D1, hc, hf, hns, fun pos occ k hk hocc => ?_, fun pos => ?_⟩
    · obtain ⟨D', e, hr⟩ := h1 pos occ k hk hocc
      refine ⟨D', ?_, hr⟩
      simp only [forgetStep, e]
      cases nk <;> rfl
    · obtain ⟨D', e, hr⟩ := h2 pos
      refine ⟨D', ?_, hr⟩
      simp only [forgetStep, e]
      cases nk <;> rfl
  move := by
    intro D slots q n h0 hw hq hn hcase
    rcases hcase with ⟨hl, p, hp⟩ | ⟨hl, hq0, hp⟩
    · obtain ⟨D1, slots1, htk, h1, h2⟩ := (lawful_native parse root).move D slots q n h0 hw hq hn
        (.inl ⟨hl, p, hp⟩)
      have hfo : ∀ to sl s', forget slots (.move q to sl) s' = s' := by
        intro to sl s'
        match q, hl with
        | a :: b :: c, _ => rfl
      refine ⟨D1, slots1, htk, ?_, ?_⟩
      · intro q' p' pos occ k hk hq' he hp' ha hocc
        obtain ⟨D', e, hr⟩ := h1 q' p' pos occ k hk hq' he hp' ha hocc
        exact ⟨D', by simp only [forgetStep, e, hfo], hr⟩
      · intro q' p' pos hq' he hp' ha
        obtain ⟨D', e, hr⟩ := h2 q' p' pos hq' he hp' ha
        exact ⟨D', by simp only [forgetStep, e, hfo], hr⟩
    · have hl' : ¬ 1 < q.length := by omega
      obtain ⟨k0, rfl⟩ : ∃ k, q = [k] := by
        match q, hl with
        | [k], _ => exact ⟨k, rfl⟩
      have hk0 : k0 ≠ 0 := by rintro rfl; exact hq0 rfl
      have hs0 : slots k0 = some n := by
        simp only [navigate] at hq
        cases e : slots k0 with
        | none => rw [e] at hq; cases hq
        | some m => rw [e] at hq; cases hq; rfl
      have hle : SlotsLe (Arena.upd slots k0 none) slots := by
        intro i m hi
        rw [Arena.upd_apply] at hi
        split at hi
        · cases hi
        · exact hi
      refine ⟨D, Arena.upd slots k0 none, .inr ⟨k0, rfl, rfl, .inr rfl⟩, ?_, ?_⟩
      · intro q' p' pos occ k _ hq' _ hp' ha hocc
        obtain ⟨D', e, hr⟩ := insertAt_put (k := k) hw (navigate_mono hle hq') hocc hn hp ha
        refine ⟨D', ?_, hr⟩
        simp only [forgetStep, applyPatch, hq, bind, Except.bind, if_neg hl',
          Arena.detach_of_parent_none hp, e, forget, if_neg hk0]
        congr 2
        funext i
        have hne : occ ≠ n := by
          rintro rfl
          rw [(hw.mem_iff _ _).1 (List.mem_of_getElem? hocc)] at hp; cases hp
        simp only [Arena.upd_apply]
        by_cases e1 : i = k0
        · subst e1
          by_cases e2 : i = k
          · simp only [e2, true_and, if_true]
            rw [if_neg]
            rw [← e2, hs0]; simpa using hne
          · simp [e2]
        · simp [e1]
      · intro q' p' pos hq' _ hp' ha
        obtain ⟨D', e, hr⟩ := insertAt_app (pos := pos) hw (navigate_mono hle hq') hp' hn hp ha
        refine ⟨D', ?_, hr⟩
        simp only [forgetStep, applyPatch, hq, bind, Except.bind, if_neg hl',
          Arena.detach_of_parent_none hp, e, forget, if_neg hk0]
        congr 2
        funext i
        simp only [Arena.upd_apply, and_true]

end Hotmeal
