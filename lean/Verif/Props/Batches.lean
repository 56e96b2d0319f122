import Verif.Lemmas.Batches

set_option autoImplicit false
set_option linter.unusedSectionVars false

/-!
# C86: patch lists applied in pieces
-/

namespace Hotmeal

open Mount

variable (parse : Str → Document)

/-! ### The slots of the client -/

/-- **C86**, the slots of the client: a stored node is found under its number, the other slots are as before. -/
theorem C86_slots_store (v : SlotVec) (slot n k : Nat) :
    (v.store slot n).get k = if k = slot then some n else v.get k := by
  unfold SlotVec.store SlotVec.get
  split
  · next h =>
    by_cases hk : k = slot
    · subst hk
      rw [if_pos rfl, List.getElem?_set_self (by simp; omega)]
      rfl
    · rw [if_neg hk, List.getElem?_set_ne (fun h => hk h.symm)]
      by_cases h1 : k < v.length
      · rw [List.getElem?_append_left h1]
      · rw [List.getElem?_append_right (by omega), List.getElem?_eq_none (l := v) (by omega), List.getElem?_replicate]
        split <;> rfl
  · next h =>
    by_cases hk : k = slot
    · subst hk
      rw [if_pos rfl, List.getElem?_set_self (by omega)]
      rfl
    · rw [if_neg hk, List.getElem?_set_ne (fun h => hk h.symm)]

/-- **C86**, the slots of the client: taking a node gives what is stored and empties that slot only. -/
theorem C86_slots_take (v : SlotVec) (slot k : Nat) :
    (v.take slot).1 = v.get slot ∧ (v.take slot).2.get k = if k = slot then none else v.get k := by
  unfold SlotVec.take SlotVec.get
  split
  · next h =>
    refine ⟨rfl, ?_⟩
    by_cases hk : k = slot
    · subst hk
      rw [if_pos rfl, List.getElem?_set_self h]
      rfl
    · rw [if_neg hk, List.getElem?_set_ne (fun h => hk h.symm)]
  · next h =>
    refine ⟨by rw [List.getElem?_eq_none (by omega)]; rfl, ?_⟩
    split
    · next hk => subst hk; simp only; rw [List.getElem?_eq_none (by omega)]; rfl
    · rfl

/-- **C86**, the slots of the client: nothing is stored at first. -/
theorem C86_slots_new (k : Nat) : SlotVec.new.get k = none := rfl

example : (SlotVec.new.store 3 7).get 3 = some 7 ∧ (SlotVec.new.store 3 7).get 2 = none ∧
    (((SlotVec.new.store 3 7).store 1 4).take 3).2.get 3 = none := by decide

/-! ### One patch at a time -/

theorem applyEach_keep : ∀ (ps : List Patch) (D : Document) (slots : Slots),
    (applyEach parse D slots ps).1 = { D with arena := (applyKeep parse D.arena slots ps).1 } ∧
    (applyEach parse D slots ps).2.2 = (applyKeep parse D.arena slots ps).2
  | [], _, _ => ⟨rfl, rfl⟩
  | p :: ps, D, slots => by
    unfold applyEach applyKeep applyPatchWithSlots
    cases h : applyPatch parse D.arena slots p with
    | error e => exact ⟨rfl, rfl⟩
    | ok r =>
      obtain ⟨A, s⟩ := r
      exact applyEach_keep ps { D with arena := A } s

/-- **C86.** Patches that are applied one at a time with slots that are kept give the document, and the error if there
is one, of `apply_patches` with the whole list. A document without body gets one even if there are no patches. -/
theorem C86_one_by_one (D : Document) (ps : List Patch) (h : ps ≠ [] ∨ D.body ≠ none) :
    applyOneByOne parse D ps = applyPatchesKeep parse D ps := by
  unfold applyOneByOne applyPatchesKeep
  obtain ⟨h1, h2⟩ := applyEach_keep parse ps (initSlots D).1 (initSlots D).2
  by_cases hn : ps = []
  · subst hn
    rcases h with h | h
    · exact absurd rfl h
    · cases hb : D.body with
      | none => exact absurd hb h
      | some b =>
        have : initSlots D = (D, Arena.upd (fun _ => none) 0 (some b)) := by
          unfold initSlots Document.ensureBody; rw [hb]
        rw [this]; rfl
  · rw [if_neg (by simpa using hn)]
    simp only [h1, h2]

/-! ### Several lists -/

theorem applyPatches_ok {D D' : Document} {b : Nat} (hb : D.body = some b) {ps : List Patch} :
    applyPatches parse D ps = .ok D' ↔
      ∃ A s, applyLoop parse D.arena (Arena.upd (fun _ => none) 0 (some b)) ps = .ok (A, s) ∧
        D' = { D with arena := A } := by
  have hi : initSlots D = (D, Arena.upd (fun _ => none) 0 (some b)) := by
    unfold initSlots Document.ensureBody; rw [hb]
  unfold applyPatches
  split
  · next he =>
    have hn : ps = [] := by simpa using he
    subst hn
    constructor
    · intro h; cases h; exact ⟨_, _, rfl, rfl⟩
    · rintro ⟨A, s, h, rfl⟩; cases h; rfl
  · rw [hi]
    constructor
    · intro h
      obtain ⟨⟨A, s⟩, h1, h⟩ := res_bind h
      cases h
      exact ⟨A, s, h1, rfl⟩
    · rintro ⟨A, s, h, rfl⟩
      simp only [h, bind, Except.bind]

/-- After patches that spare the body, it is still the body. -/
theorem body_of_patches {D D' : Document} (hw : D.arena.WF) {b : Nat} (hb : D.body = some b) {ps : List Patch}
    (hP : ∀ P ∈ ps, P.SparesRoot) (e : applyPatches parse D ps = .ok D') : D'.body = some b := by
  have h := C06_any_patches parse hw hb hP
  rw [applyPatches_keep] at e
  generalize applyPatchesKeep parse D ps = r at h e
  obtain ⟨D1, x⟩ := r
  cases x with
  | none => cases e; rw [h.body, hb]
  | some x => cases e

theorem SparesRoot.not_zero {P : Patch} (h : P.SparesRoot) : P.displaced ≠ some 0 := by
  cases P with
  | move from_ to_ slot => exact h.2
  | insertElement a b c d slot => exact h
  | insertText a b slot => exact h
  | insertComment a b slot => exact h
  | _ => intro h; cases h

theorem zero_not_used {ps : List Patch} (hP : ∀ P ∈ ps, P.SparesRoot) : 0 ∉ slotsUsed ps := by
  intro h
  obtain ⟨P, h1, h2⟩ := List.mem_filterMap.1 h
  exact SparesRoot.not_zero (hP P h1) h2

/-- **C86**, merging: if a list of patches is applied and then another one, then both can be applied as one list, with
the same result. The slots of the first list do no harm to the second one, whatever their numbers are. -/
theorem C86_merge {D D1 D2 : Document} (hw : D.arena.WF) {b : Nat} (hb : D.body = some b) {ps qs : List Patch}
    (hP : ∀ P ∈ ps, P.SparesRoot) (e1 : applyPatches parse D ps = .ok D1) (e2 : applyPatches parse D1 qs = .ok D2) :
    applyPatches parse D (ps ++ qs) = .ok D2 := by
  have hb1 := body_of_patches parse hw hb hP e1
  obtain ⟨A1, s1, h1, rfl⟩ := (applyPatches_ok parse hb).1 e1
  obtain ⟨A2, s2, h2, rfl⟩ := (applyPatches_ok parse hb1).1 e2
  have h0 : s1 0 = some b := by
    rw [applyLoop_slots parse ps h1 0 (zero_not_used hP)]; exact Arena.upd_same ..
  obtain ⟨s3, h3, _⟩ := applyLoop_below (H := fun _ => True) parse qs (t := s1) (by
    intro k n _ hk
    rw [Arena.upd_apply] at hk
    split at hk
    · next hk0 => subst hk0; rw [h0]; exact hk
    · cases hk) (fun _ _ _ _ => trivial) h2
  refine (applyPatches_ok parse hb).2 ⟨A2, s3, ?_, rfl⟩
  rw [applyLoop_append, h1]
  exact h3

/-- **C86**, merging any number of lists. -/
theorem C86_merge_all : ∀ (pss : List (List Patch)) {D D' : Document}, D.Sound → ∀ {b : Nat}, D.body = some b →
    (∀ ps ∈ pss, ∀ P ∈ ps, P.SparesRoot) → applyLists parse D pss = .ok D' → applyPatches parse D pss.flatten = .ok D' := by
  have key : ∀ (pss : List (List Patch)) {D D' D0 : Document} {qs : List Patch}, D0.arena.WF → ∀ {b : Nat},
      D0.body = some b → (∀ P ∈ qs, P.SparesRoot) → (∀ ps ∈ pss, ∀ P ∈ ps, P.SparesRoot) →
      applyPatches parse D0 qs = .ok D → applyLists parse D pss = .ok D' →
      applyPatches parse D0 (qs ++ pss.flatten) = .ok D' := by
    intro pss
    induction pss with
    | nil =>
      intro D D' D0 qs _ b _ _ _ h1 h2
      cases h2
      simpa using h1
    | cons ps pss ih =>
      intro D D' D0 qs hw b hb hq hp h1 h2
      unfold applyLists at h2
      obtain ⟨D1, h3, h2⟩ := res_bind h2
      have h4 := C86_merge parse hw hb hq h1 h3
      have := ih hw hb (qs := qs ++ ps) (by
        intro P hP
        rcases List.mem_append.1 hP with h | h
        · exact hq P h
        · exact hp ps (by simp) P h) (fun l hl => hp l (by simp [hl])) h4 h2
      rw [List.flatten_cons, ← List.append_assoc]
      exact this
  intro pss D D' hD b hb hp e
  have := key pss (qs := []) hD.arena.wf hb (by simp) hp (C25_empty_is_identity parse D).1 e
  simpa using this

/-- **C86**, splitting: if no patch of the second part refers to a slot in which the first part stores a node, then the
list can be applied in two calls, with the same result. -/
theorem C86_split {D D2 : Document} (hw : D.arena.WF) {b : Nat} (hb : D.body = some b) {ps qs : List Patch}
    (hP : ∀ P ∈ ps, P.SparesRoot) (hq : ∀ Q ∈ qs, ∀ k, Q.refers k → k ∉ slotsUsed ps) :
    applyPatches parse D (ps ++ qs) = .ok D2 ↔ applyLists parse D [ps, qs] = .ok D2 := by
  constructor
  · intro e
    obtain ⟨A2, s2, h, rfl⟩ := (applyPatches_ok parse hb).1 e
    rw [applyLoop_append] at h
    cases h1 : applyLoop parse D.arena (Arena.upd (fun _ => none) 0 (some b)) ps with
    | error x => rw [h1] at h; cases h
    | ok r =>
      obtain ⟨A1, s1⟩ := r
      rw [h1] at h
      have e1 : applyPatches parse D ps = .ok { D with arena := A1 } := (applyPatches_ok parse hb).2 ⟨A1, s1, h1, rfl⟩
      have hb1 := body_of_patches parse hw hb hP e1
      obtain ⟨s3, h3, _⟩ := applyLoop_below (H := fun k => k ∉ slotsUsed ps) parse qs
        (t := Arena.upd (fun _ => none) 0 (some b)) (by
          intro k n hk hn
          have := applyLoop_slots parse ps h1 k hk
          exact this ▸ hn) hq h
      have e2 : applyPatches parse { D with arena := A1 } qs = .ok { D with arena := A2 } :=
        (applyPatches_ok parse hb1).2 ⟨A2, s3, h3, rfl⟩
      simp only [applyLists, e1, e2, bind, Except.bind]
  · intro e
    unfold applyLists at e
    obtain ⟨D1, e1, e⟩ := res_bind e
    unfold applyLists at e
    obtain ⟨D3, e2, e⟩ := res_bind e
    cases e
    exact C86_merge parse hw hb hP e1 e2

/-! ### The browser -/

theorem w_applyPatches_ok (dom : WebDom) {root : Nat} {E E' : Arena NodeData} {ps : List Patch} :
    dom.applyPatches root E ps = .ok E' ↔ ∃ s, dom.applyLoop root E (fun _ => none) ps = .ok (E', s) := by
  unfold WebDom.applyPatches
  constructor
  · intro h
    obtain ⟨⟨A, s⟩, h1, h⟩ := res_bind h
    cases h
    exact ⟨s, h1⟩
  · rintro ⟨s, h⟩
    simp only [h, bind, Except.bind]

/-- **C86**, merging in the browser, for any element that is patched and any patches: if a list is applied and then
another one, then both can be applied as one list, with the same result. -/
theorem C86_browser_merge (dom : WebDom) {root : Nat} {E E1 E2 : Arena NodeData} {ps qs : List Patch}
    (e1 : dom.applyPatches root E ps = .ok E1) (e2 : dom.applyPatches root E1 qs = .ok E2) :
    dom.applyPatches root E (ps ++ qs) = .ok E2 := by
  obtain ⟨s1, h1⟩ := (w_applyPatches_ok dom).1 e1
  obtain ⟨s2, h2⟩ := (w_applyPatches_ok dom).1 e2
  obtain ⟨s3, h3, _⟩ := w_applyLoop_below (H := fun _ => True) dom qs (t := s1) (fun k n _ hk => by cases hk)
    (fun _ _ _ _ => trivial) h2
  refine (w_applyPatches_ok dom).2 ⟨s3, ?_⟩
  rw [w_applyLoop_append, h1]
  exact h3

/-- **C86**, splitting in the browser: if no patch of the second part refers to a slot in which the first part stores a
node, then the list can be applied in two calls, with the same result. -/
theorem C86_browser_split (dom : WebDom) {root : Nat} {E E2 : Arena NodeData} {ps qs : List Patch}
    (hq : ∀ Q ∈ qs, ∀ k, Q.refers k → k ∉ slotsUsed ps) :
    dom.applyPatches root E (ps ++ qs) = .ok E2 ↔
      ∃ E1, dom.applyPatches root E ps = .ok E1 ∧ dom.applyPatches root E1 qs = .ok E2 := by
  constructor
  · intro e
    obtain ⟨s2, h⟩ := (w_applyPatches_ok dom).1 e
    rw [w_applyLoop_append] at h
    cases h1 : dom.applyLoop root E (fun _ => none) ps with
    | error x => rw [h1] at h; cases h
    | ok r =>
      obtain ⟨E1, s1⟩ := r
      rw [h1] at h
      obtain ⟨s3, h3, _⟩ := w_applyLoop_below (H := fun k => k ∉ slotsUsed ps) dom qs (t := fun _ => none) (by
        intro k n hk hn
        rcases w_applyLoop_slots dom ps h1 k hk with h | h
        · exact h ▸ hn
        · exact absurd hn (by simp only [h]; simp)) hq h
      exact ⟨E1, (w_applyPatches_ok dom).2 ⟨s1, h1⟩, (w_applyPatches_ok dom).2 ⟨s3, h3⟩⟩
  · rintro ⟨E1, e1, e2⟩
    exact C86_browser_merge dom e1 e2

/-- The body of a page is found again after patches that spare it. -/
theorem resolve_after (dom : WebDom) {E E' : Arena NodeData} (hE : E.WF) {doc m : Nat}
    (hm : documentBody E doc = some m) {ps : List Patch} (hP : ∀ P ∈ ps, P.SparesRoot)
    (e : dom.applyPatches m E ps = .ok E') : documentBody E' doc = some m := by
  obtain ⟨p, hp⟩ := documentBody_parent hE hm
  exact documentBody_same (samePlace_of_patches dom hE (hE.lt_of_parent _ _ hp).1 hP e).2.2 hE hm

theorem applyOn_body (dom : WebDom) {E : Arena NodeData} {doc m : Nat} (hm : documentBody E doc = some m)
    (ps : List Patch) : applyPatchesOn dom E doc .body ps = dom.applyPatches m E ps := by
  simp only [applyPatchesOn, resolveMountPoint, hm, bind, Except.bind]

theorem applySlotsOn_body (dom : WebDom) {E : Arena NodeData} {doc m : Nat} (hm : documentBody E doc = some m)
    (s : Slots) (ps : List Patch) : applyPatchesWithSlotsOn dom E doc .body s ps = dom.applyLoop m E s ps := by
  simp only [applyPatchesWithSlotsOn, resolveMountPoint, hm, bind, Except.bind]

/-- **C86**, in the browser: calls of `apply_patches_with_slots` that hand on the slots do what one call with all the
patches does. They stop with the same error, if there is one. -/
theorem C86_browser_kept_slots (dom : WebDom) {E : Arena NodeData} (hE : E.WF) {doc m : Nat}
    (hm : documentBody E doc = some m) (pss : List (List Patch)) (hP : ∀ ps ∈ pss, ∀ P ∈ ps, P.SparesRoot) :
    applyListsWithSlotsOn dom E doc .body (fun _ => none) pss =
      applyPatchesWithSlotsOn dom E doc .body (fun _ => none) pss.flatten := by
  have key : ∀ (pss : List (List Patch)) (qs : List Patch) (A : Arena NodeData) (s : Slots),
      (∀ P ∈ qs, P.SparesRoot) → (∀ ps ∈ pss, ∀ P ∈ ps, P.SparesRoot) →
      dom.applyLoop m E (fun _ => none) qs = .ok (A, s) →
      applyListsWithSlotsOn dom A doc .body s pss = dom.applyLoop m A s pss.flatten := by
    intro pss
    induction pss with
    | nil => intro qs A s _ _ _; rfl
    | cons ps pss ih =>
      intro qs A s hq hp h
      have hb := resolve_after dom hE hm hq ((w_applyPatches_ok dom).2 ⟨s, h⟩)
      rw [List.flatten_cons, w_applyLoop_append]
      simp only [applyListsWithSlotsOn, applySlotsOn_body dom hb, bind, Except.bind]
      cases h1 : dom.applyLoop m A s ps with
      | error x => rfl
      | ok r =>
        obtain ⟨A1, s1⟩ := r
        refine ih (qs ++ ps) A1 s1 (fun P hP => ?_) (fun l hl => hp l (by simp [hl])) ?_
        · rcases List.mem_append.1 hP with h | h
          · exact hq P h
          · exact hp ps (by simp) P h
        · rw [w_applyLoop_append, h]; exact h1
  rw [key pss [] E _ (by simp) hP rfl, applySlotsOn_body dom hm]

/-- **C86**, merging any number of lists for the body of a page. -/
theorem C86_browser_merge_all (dom : WebDom) {doc m : Nat} : ∀ (pss : List (List Patch)) {E E' : Arena NodeData},
    E.WF → documentBody E doc = some m → (∀ ps ∈ pss, ∀ P ∈ ps, P.SparesRoot) →
    applyListsOn dom E doc .body pss = .ok E' → applyPatchesOn dom E doc .body pss.flatten = .ok E' := by
  have key : ∀ (pss : List (List Patch)) {E E' E0 : Arena NodeData} {qs : List Patch}, E0.WF →
      documentBody E0 doc = some m → (∀ P ∈ qs, P.SparesRoot) → (∀ ps ∈ pss, ∀ P ∈ ps, P.SparesRoot) →
      dom.applyPatches m E0 qs = .ok E → applyListsOn dom E doc .body pss = .ok E' →
      dom.applyPatches m E0 (qs ++ pss.flatten) = .ok E' := by
    intro pss
    induction pss with
    | nil =>
      intro E E' E0 qs _ _ _ _ h1 h2
      cases h2
      simpa using h1
    | cons ps pss ih =>
      intro E E' E0 qs hw hb hq hp h1 h2
      unfold applyListsOn at h2
      obtain ⟨E1, h3, h2⟩ := res_bind h2
      rw [applyOn_body dom (resolve_after dom hw hb hq h1)] at h3
      have := ih hw hb (qs := qs ++ ps) (by
        intro P hP
        rcases List.mem_append.1 hP with h | h
        · exact hq P h
        · exact hp ps (by simp) P h) (fun l hl => hp l (by simp [hl])) (C86_browser_merge dom h1 h3) h2
      rw [List.flatten_cons, ← List.append_assoc]
      exact this
  intro pss E E' hE hm hp e
  have := key pss (qs := []) hE hm (by simp) hp (E := E) rfl e
  rw [applyOn_body dom hm]
  simpa using this

/-- **C86**, merging any number of lists for an element of the page that a selector finds: it is enough that the
selector finds the same element before each of the calls. -/
theorem C86_found_again_merge (dom : WebDom) {doc m : Nat} {sel : Target} {pss : List (List Patch)}
    {E E' : Arena NodeData}
    (hr : ∀ k A, dom.applyPatches m E (pss.take k).flatten = .ok A → resolveMountPoint A doc sel = .ok m)
    (e : applyListsOn dom E doc sel pss = .ok E') : applyPatchesOn dom E doc sel pss.flatten = .ok E' := by
  have on : ∀ (A : Arena NodeData) (ps : List Patch), resolveMountPoint A doc sel = .ok m →
      applyPatchesOn dom A doc sel ps = dom.applyPatches m A ps := by
    intro A ps h
    simp only [applyPatchesOn, h, bind, Except.bind]
  have key : ∀ (rest : List (List Patch)) (k : Nat) (A : Arena NodeData), pss.drop k = rest →
      dom.applyPatches m E (pss.take k).flatten = .ok A → applyListsOn dom A doc sel rest = .ok E' →
      dom.applyPatches m E pss.flatten = .ok E' := by
    intro rest
    induction rest with
    | nil =>
      intro k A hk h1 h2
      cases h2
      rw [← h1, ← List.take_append_drop k pss, hk, List.append_nil, List.take_take, Nat.min_self]
    | cons ps rest ih =>
      intro k A hk h1 h2
      unfold applyListsOn at h2
      obtain ⟨A1, h3, h2⟩ := res_bind h2
      rw [on A ps (hr k A h1)] at h3
      have hlt : k < pss.length := by
        apply Nat.lt_of_not_le
        intro hle
        rw [List.drop_eq_nil_of_le hle] at hk
        cases hk
      rw [List.drop_eq_getElem_cons hlt] at hk
      injection hk with hk1 hk2
      refine ih (k + 1) A1 hk2 ?_ h2
      rw [List.take_succ_eq_append_getElem hlt, List.flatten_append, hk1]
      simpa using C86_browser_merge dom h1 h3
  rw [on E _ (hr 0 E (by simp [WebDom.applyPatches, WebDom.applyLoop, bind, Except.bind]))]
  exact key pss 0 E rfl (by simp [WebDom.applyPatches, WebDom.applyLoop, bind, Except.bind]) e

/-- **C86**, for a mount point and with the slots handed on: as `C86_browser_kept_slots`, if the selector finds the same
element before each of the calls. -/
theorem C86_found_again_kept_slots (dom : WebDom) {doc m : Nat} {sel : Target} {pss : List (List Patch)}
    {E : Arena NodeData}
    (hr : ∀ k A, dom.applyPatches m E (pss.take k).flatten = .ok A → resolveMountPoint A doc sel = .ok m) :
    applyListsWithSlotsOn dom E doc sel (fun _ => none) pss =
      applyPatchesWithSlotsOn dom E doc sel (fun _ => none) pss.flatten := by
  have on : ∀ (A : Arena NodeData) (s : Slots) (ps : List Patch), resolveMountPoint A doc sel = .ok m →
      applyPatchesWithSlotsOn dom A doc sel s ps = dom.applyLoop m A s ps := by
    intro A s ps h
    simp only [applyPatchesWithSlotsOn, h, bind, Except.bind]
  have key : ∀ (rest : List (List Patch)) (k : Nat) (A : Arena NodeData) (s : Slots), pss.drop k = rest →
      dom.applyLoop m E (fun _ => none) (pss.take k).flatten = .ok (A, s) →
      applyListsWithSlotsOn dom A doc sel s rest = dom.applyLoop m A s rest.flatten := by
    intro rest
    induction rest with
    | nil => intro k A s _ _; rfl
    | cons ps rest ih =>
      intro k A s hk h
      rw [List.flatten_cons, w_applyLoop_append]
      simp only [applyListsWithSlotsOn, on A s ps (hr k A ((w_applyPatches_ok dom).2 ⟨s, h⟩)), bind, Except.bind]
      cases h1 : dom.applyLoop m A s ps with
      | error x => rfl
      | ok r =>
        obtain ⟨A1, s1⟩ := r
        have hlt : k < pss.length := by
          apply Nat.lt_of_not_le
          intro hle
          rw [List.drop_eq_nil_of_le hle] at hk
          cases hk
        rw [List.drop_eq_getElem_cons hlt] at hk
        injection hk with hk1 hk2
        refine ih (k + 1) A1 s1 hk2 ?_
        rw [List.take_succ_eq_append_getElem hlt, List.flatten_append, hk1, w_applyLoop_append, h]
        simpa [bind, Except.bind] using h1
  rw [on E _ _ (hr 0 E (by simp [WebDom.applyPatches, WebDom.applyLoop, bind, Except.bind]))]
  exact key pss 0 E _ rfl rfl

/-- **C86**, for a mount point: if the lists spare the mount point and leave its attributes as they are, and the
selector does not look into it, then they can be merged. -/
theorem C86_mount_merge (dom : WebDom) {doc m : Nat} {sel : Target} (hs : sel.Outer) {pss : List (List Patch)}
    {E E' : Arena NodeData} (hE : E.WF) (hm : m < E.next) (hr : resolveMountPoint E doc sel = .ok m)
    (hP : ∀ ps ∈ pss, ∀ P ∈ ps, P.SparesRoot)
    (hl : ∀ k A, dom.applyPatches m E (pss.take k).flatten = .ok A → looks A m = looks E m)
    (e : applyListsOn dom E doc sel pss = .ok E') : applyPatchesOn dom E doc sel pss.flatten = .ok E' := by
  refine C86_found_again_merge dom (m := m) (fun k A h => ?_) e
  obtain ⟨h1, h2, h3⟩ := samePlace_of_patches dom hE hm (fun P hp => by
    obtain ⟨l, hl, hp⟩ := List.mem_flatten.1 hp
    exact hP l (List.mem_of_mem_take hl) P hp) h
  exact resolve_same h3 hE h1 h2 (.inr ⟨hs, hl k A h⟩) hm hr

/-! ### Updates that have piled up -/

variable {H : Type} [DecidableEq H]

/-- The patch lists from each version to the next one. -/
def allDiffs (hashNode : HKind → Option Str → List H → H) : Document → List Document → Res (List (List Patch))
  | _, [] => .ok []
  | old, new :: rest => do
    let ps ← diff hashNode old new
    let pss ← allDiffs hashNode new rest
    .ok (ps :: pss)

/-- **C86**, updates that have piled up: the patches of several versions, sent as one list, do to the page what they do
one after the other. -/
theorem C86_updates_at_once (dom : WebDom) {hashNode : HKind → Option Str → List H → H} {doc m : Nat} :
    ∀ (Ds : List Document) {D : Document} {E E' : Arena NodeData}, E.WF → documentBody E doc = some m →
    (∀ A ∈ D :: Ds, A.Sound) → (D :: Ds).IsChain SameBodyNs →
    updatesOn dom hashNode doc .body E D Ds = .ok E' →
    ∃ pss, allDiffs hashNode D Ds = .ok pss ∧
      applyPatchesOn dom E doc .body (pss.flatten.map Patch.wire) = .ok E' := by
  have key : ∀ (Ds : List Document) {D : Document} {E E' : Arena NodeData},
      (∀ A ∈ D :: Ds, A.Sound) → (D :: Ds).IsChain SameBodyNs → updatesOn dom hashNode doc .body E D Ds = .ok E' →
      ∃ pss, allDiffs hashNode D Ds = .ok pss ∧ (∀ ps ∈ pss, ∀ P ∈ ps, P.SparesRoot) ∧
        applyListsOn dom E doc .body (pss.map (List.map Patch.wire)) = .ok E' := by
    intro Ds
    induction Ds with
    | nil => intro D E E' _ _ h; cases h; exact ⟨[], rfl, by simp, rfl⟩
    | cons D2 Ds ih =>
      intro D E E' hs hc h
      unfold updatesOn at h
      obtain ⟨ps, h1, h⟩ := res_bind h
      obtain ⟨E1, h2, h⟩ := res_bind h
      rw [List.isChain_cons_cons] at hc
      obtain ⟨pss, h3, h4, h5⟩ := ih (fun A hA => hs A (List.mem_cons_of_mem _ hA)) hc.2 h
      obtain ⟨ps', e', hsp⟩ := diff_ok (hashNode := hashNode) (hs D (by simp)) (hs D2 (by simp))
      rw [h1] at e'; cases e'
      refine ⟨ps :: pss, by simp only [allDiffs, h1, h3, bind, Except.bind], ?_, ?_⟩
      · intro l hl
        rcases List.mem_cons.1 hl with rfl | hl
        · exact hsp hc.1
        · exact h4 l hl
      · simp only [List.map_cons, applyListsOn, h2, h5, bind, Except.bind]
  intro Ds D E E' hE hm hs hc h
  obtain ⟨pss, h1, h2, h3⟩ := key Ds hs hc h
  refine ⟨pss, h1, ?_⟩
  rw [List.map_flatten]
  refine C86_browser_merge_all dom _ hE hm ?_ h3
  intro l hl P hP
  obtain ⟨ps, hps, rfl⟩ := List.mem_map.1 hl
  obtain ⟨Q, hQ, rfl⟩ := List.mem_map.1 hP
  exact (h2 ps hps Q hQ).wire

/-! ### Examples -/

/-- A page with two paragraphs. -/
def twoParas : List Html := [ex "p" [] [.text "one".toList], ex "p" [] [.text "two".toList]]

/-- Puts a heading in the place of the first paragraph, which goes to slot 1, and moves the paragraph to the end. -/
def headingFirst (title : String) (last : Nat) : List Patch :=
  [.insertElement [0, 0] "h1".toList [] [.text title.toList] (some 1), .move [1] [0, last] none]

/-- The hypotheses of `C86_merge`, `C86_merge_all` and `C86_one_by_one` hold for two lists that use the same slot. -/
example : (Document.ofForest twoParas).arena.WF ∧ (Document.ofForest twoParas).body = some 2 ∧
    (∀ P ∈ headingFirst "a" 2 ++ headingFirst "b" 3, P.SparesRoot) ∧
    (match applyLists (fun _ => .new) (.ofForest twoParas) [headingFirst "a" 2, headingFirst "b" 3] with
      | .ok D => decide (String.ofList D.toBodyHtml = "<h1>b</h1><p>two</p><p>one</p><h1>a</h1>")
      | .error _ => false) = true := by
  have p : Html.plainL twoParas = true := by decide +kernel
  refine ⟨(ofForest_spec _ p).1.arena.wf, (ofForest_spec _ p).2.1, ?_, by decide +kernel⟩
  intro P hP
  simp only [headingFirst, List.cons_append, List.nil_append, List.mem_cons, List.not_mem_nil, or_false] at hP
  rcases hP with rfl | rfl | rfl | rfl <;> simp [Patch.SparesRoot]

/-- The hypotheses of `C86_split` and `C86_browser_split` hold for a list that is cut between the two headings. -/
example : ∀ Q ∈ [Patch.setText [0, 1, 0] "three".toList, .insertText [0, 0] "x".toList (some 1)], ∀ k, Q.refers k →
    k ∉ slotsUsed (headingFirst "a" 2) := by
  rintro Q hQ k ⟨path, hp, hk⟩
  simp only [List.mem_cons, List.not_mem_nil, or_false] at hQ
  rcases hQ with rfl | rfl <;> simp only [Patch.paths, List.mem_singleton] at hp <;> subst hp <;> cases hk <;> decide

/-- The same paragraphs in a page with a document node. -/
def twoParasPage : Arena NodeData :=
  let A : Arena NodeData := ⟨0, fun _ => none, fun _ => [], fun _ => default⟩
  let A := (A.newNode ⟨.document, .html⟩).1
  let A := (A.addChild 0 (Document.elem "html".toList)).1
  let A := (A.addChild 1 (Document.elem "head".toList)).1
  let A := (A.addChild 1 (Document.elem "body".toList)).1
  let A := (A.addChild 3 (Document.elem "p".toList)).1
  let A := (A.addChild 4 ⟨.text "one".toList, .html⟩).1
  let A := (A.addChild 3 (Document.elem "p".toList)).1
  (A.addChild 6 ⟨.text "two".toList, .html⟩).1

theorem twoParasPage_wf : twoParasPage.WF := by
  have hE : (⟨0, fun _ => none, fun _ => [], fun _ => default⟩ : Arena NodeData).WF :=
    ⟨by simp, by simp, by simp, ⟨fun _ => 0, by simp⟩⟩
  have h0 := hE.newNode ⟨NodeKind.document, .html⟩
  exact ((((((h0.addChild (by decide) _).addChild (by decide) _).addChild (by decide) _).addChild (by decide) _).addChild
    (by decide) _).addChild (by decide) _).addChild (by decide) _

/-- The hypotheses of the theorems about the browser hold for the page with the same two lists. -/
example : twoParasPage.WF ∧ documentBody twoParasPage 0 = some 3 ∧
    (match applyListsOn WebDom.lenient twoParasPage 0 .body [headingFirst "a" 2, headingFirst "b" 3] with
      | .ok E => decide (String.ofList (serializeInner E 3) = "<h1>b</h1><p>two</p><p>one</p><h1>a</h1>")
      | .error _ => false) = true := ⟨twoParasPage_wf, by decide +kernel, by decide +kernel⟩

/-- Two lists for the first paragraph of the page, which use the same slot. -/
def boldFirst (s : String) (last : Nat) : List Patch :=
  [.insertElement [0, 0] "b".toList [] [.text s.toList] (some 1), .move [1] [0, last] none]

/-- The selector `body > p`. -/
def paraSel : Target := .css (Css.child (.type "body".toList) (.type "p".toList)).matches

/-- The hypotheses of `C86_mount_merge`, and so of the theorems that ask for an element that is found again, hold
for the first paragraph of the page and two lists that use the same slot. -/
example : paraSel.Outer ∧ twoParasPage.WF ∧ 4 < twoParasPage.next ∧ resolveMountPoint twoParasPage 0 paraSel = .ok 4 ∧
    (∀ ps ∈ [boldFirst "x" 1, boldFirst "y" 2], ∀ P ∈ ps, P.SparesRoot) ∧
    (∀ k A, WebDom.lenient.applyPatches 4 twoParasPage ([boldFirst "x" 1, boldFirst "y" 2].take k).flatten = .ok A →
      looks A 4 = looks twoParasPage 4) ∧
    (match applyListsOn WebDom.lenient twoParasPage 0 paraSel [boldFirst "x" 1, boldFirst "y" 2] with
      | .ok E => decide (String.ofList (serializeInner E 3) = "<p><b>y</b>one<b>x</b></p><p>two</p>")
      | .error _ => false) = true := by
  refine ⟨Css.outer _, twoParasPage_wf, by decide +kernel, ?_, ?_, ?_, by decide +kernel⟩
  · have h : querySelector twoParasPage 0 (Css.child (.type "body".toList) (.type "p".toList)).matches = some 4 := by
      decide +kernel
    simp only [paraSel, resolveMountPoint, h]
  · intro ps hps P hP
    simp only [List.mem_cons, List.not_mem_nil, or_false] at hps
    rcases hps with rfl | rfl <;> simp only [boldFirst, List.mem_cons, List.not_mem_nil, or_false] at hP <;>
      rcases hP with rfl | rfl <;> simp [Patch.SparesRoot]
  · have key : ∀ k, k ≤ 2 → (match WebDom.lenient.applyPatches 4 twoParasPage
        ([boldFirst "x" 1, boldFirst "y" 2].take k).flatten with
        | .ok A => decide (looks A 4 = looks twoParasPage 4)
        | .error _ => true) = true := by decide +kernel
    intro k A h
    have h2 : [boldFirst "x" 1, boldFirst "y" 2].take k = [boldFirst "x" 1, boldFirst "y" 2].take (min k 2) := by
      rw [← List.take_take, List.take_of_length_le (i := 2) (by simp)]
    have := key (min k 2) (Nat.min_le_right ..)
    rw [← h2, h] at this
    exact of_decide_eq_true this

/-- **C86**, what merging needs at a mount point: a list that takes from the element what the selector finds it by. With
two calls the text goes to the next element that the selector finds, with one call to the first one. -/
theorem C86_merge_needs_mount : ∃ (cs : List Html) (sel : Target) (ps qs : List Patch),
    (∀ P ∈ ps ++ qs, P.SparesRoot) ∧ sel.Outer ∧
    (match applyListsOn WebDom.lenient (Document.ofForest cs).arena 0 sel [ps, qs] with
      | .ok E => decide (String.ofList (serializeInner E 2) = "<p></p><p id=\"a\">x</p>")
      | .error _ => false) = true ∧
    (match applyPatchesOn WebDom.lenient (Document.ofForest cs).arena 0 sel (ps ++ qs) with
      | .ok E => decide (String.ofList (serializeInner E 2) = "<p>x</p><p id=\"a\"></p>")
      | .error _ => false) = true := by
  refine ⟨[ex "p" [("id", "a")] [], ex "p" [("id", "a")] []], .css (Css.id "a".toList).matches,
    [.removeAttribute [0] ⟨none, [], "id".toList⟩], [.insertText [0, 0] "x".toList none], ?_, Css.outer _, by decide +kernel,
    by decide +kernel⟩
  intro P hP
  simp only [List.cons_append, List.nil_append, List.mem_cons, List.not_mem_nil, or_false] at hP
  rcases hP with rfl | rfl <;> simp [Patch.SparesRoot]

/-- The hypotheses of `C86_updates_at_once` hold for the page and two further versions of its content. -/
example : (∀ A ∈ [Document.ofForest twoParas, .ofForest ex1, .ofForest twoParas], A.Sound) ∧
    [Document.ofForest twoParas, .ofForest ex1, .ofForest twoParas].IsChain SameBodyNs ∧
    (match updatesOn WebDom.lenient Shape.node 0 .body twoParasPage (.ofForest twoParas)
        [.ofForest ex1, .ofForest twoParas] with
      | .ok E => decide (serializeInner E 3 = (Document.ofForest twoParas).toBodyHtml)
      | .error _ => false) = true := by
  have p1 : Html.plainL twoParas = true := by decide +kernel
  have p2 : Html.plainL ex1 = true := by decide +kernel
  refine ⟨?_, ?_, by decide +kernel⟩
  · intro A hA
    simp only [List.mem_cons, List.not_mem_nil, or_false] at hA
    rcases hA with rfl | rfl | rfl
    · exact (ofForest_spec _ p1).1
    · exact (ofForest_spec _ p2).1
    · exact (ofForest_spec _ p1).1
  · simp only [List.isChain_cons_cons, List.isChain_singleton, and_true]
    constructor
    · intro ob nb ho hn
      rw [(ofForest_spec _ p1).2.1] at ho
      rw [(ofForest_spec _ p2).2.1] at hn
      cases ho; cases hn
      decide +kernel
    · intro ob nb ho hn
      rw [(ofForest_spec _ p2).2.1] at ho
      rw [(ofForest_spec _ p1).2.1] at hn
      cases ho; cases hn
      decide +kernel

/-- **C86**, what splitting needs: with a cut between a patch that displaces a node and the one that puts it back, the
whole list can be applied, natively and in the browser, and in two calls without common slots the second one fails. -/
theorem C86_cut_needs_slots : ∃ (cs : List Html) (E : Arena NodeData) (ps qs : List Patch),
    (match applyPatches (fun _ => .new) (.ofForest cs) (ps ++ qs) with
      | .ok _ => true
      | .error _ => false) = true ∧
    (match applyLists (fun _ => .new) (.ofForest cs) [ps, qs] with
      | .ok _ => false
      | .error e => decide (e = .slotNotFound 1)) = true ∧
    (match applyPatchesOn WebDom.lenient E 0 .body (ps ++ qs) with
      | .ok _ => true
      | .error _ => false) = true ∧
    (match applyListsOn WebDom.lenient E 0 .body [ps, qs] with
      | .ok _ => false
      | .error e => decide (e = .slotNotFound 1)) = true :=
  ⟨twoParas, twoParasPage, (headingFirst "a" 2).take 1, (headingFirst "a" 2).drop 1, by decide +kernel, by decide +kernel,
    by decide +kernel, by decide +kernel⟩

/-- **C86**, what merging needs: patches that remove the body. With two calls the second one makes a new body and shows the
text in it, with one call the text goes into the body that was removed. -/
theorem C86_merge_needs_body : ∃ (cs : List Html) (ps qs : List Patch),
    (match applyLists (fun _ => .new) (.ofForest cs) [ps, qs] with
      | .ok D => decide (String.ofList D.toBodyHtml = "x")
      | .error _ => false) = true ∧
    (match applyPatches (fun _ => .new) (.ofForest cs) (ps ++ qs) with
      | .ok D => decide (String.ofList D.toBodyHtml = "")
      | .error _ => false) = true :=
  ⟨twoParas, [.remove [0]], [.insertText [0, 0] "x".toList none], by decide +kernel, by decide +kernel⟩

end Hotmeal
