import Verif.Props.Address

set_option autoImplicit false
set_option linter.unusedSectionVars false

/-!
# C16: slots of displaced nodes
-/

namespace Hotmeal

/-- The slot in which a patch stores the node it displaces. -/
def Patch.displaced : Patch → Option Nat
  | .insertElement _ _ _ _ slot => slot
  | .insertText _ _ slot => slot
  | .insertComment _ _ slot => slot
  | .move _ _ slot => slot
  | _ => none

/-- The paths a patch carries. -/
def Patch.paths : Patch → List Path
  | .insertElement at_ _ _ _ _ => [at_]
  | .insertText at_ _ _ => [at_]
  | .insertComment at_ _ _ => [at_]
  | .remove q => [q]
  | .setText q _ => [q]
  | .setAttribute q _ _ => [q]
  | .removeAttribute q _ => [q]
  | .move from_ to _ => [from_, to]
  | .updateProps q _ => [q]
  | .opaqueChanged q _ => [q]

/-- The slots used by a patch list, in order. -/
def slotsUsed (ps : List Patch) : List Nat := ps.filterMap Patch.displaced

theorem res_bind {α β : Type} {x : Res α} {f : α → Res β} {r : β} (h : (x >>= f) = .ok r) :
    ∃ v, x = .ok v ∧ f v = .ok r := by
  cases x with
  | error e => cases h
  | ok v => exact ⟨v, rfl, h⟩

/-! ### Numbering -/

namespace Shadow

theorem createSlot_next {S S' : Shadow} {k : Nat} (h : S.createSlot = .ok (S', k)) :
    k = S.nextSlot ∧ S'.nextSlot = S.nextSlot + 1 := by
  simp only [createSlot, bind, Except.bind] at h
  split at h
  · cases h
  · cases h; exact ⟨rfl, rfl⟩

theorem detachToSlot_next {S S' : Shadow} {n k : Nat} (h : S.detachToSlot n = .ok (S', k)) :
    k = S.nextSlot ∧ S'.nextSlot = S.nextSlot + 1 := by
  simp only [detachToSlot, bind, Except.bind] at h
  split at h
  · cases h
  · next v hv =>
    obtain ⟨S1, k1⟩ := v
    obtain ⟨e1, e2⟩ := createSlot_next hv
    simp only at h
    split at h
    · cases h
    · split at h
      · cases h
      · cases h; exact ⟨e1, e2⟩

/-- At most one slot is created, with the next number. -/
def OneSlot (S S' : Shadow) (slot : Option Nat) : Prop :=
  (slot = none ∧ S'.nextSlot = S.nextSlot) ∨
    (slot = some S.nextSlot ∧ S'.nextSlot = S.nextSlot + 1)

theorem insertAtPosition_next {S S' : Shadow} {p pos n : Nat} {slot : Option Nat}
    (h : S.insertAtPosition p pos n = .ok (S', slot)) : OneSlot S S' slot := by
  simp only [insertAtPosition] at h
  split at h
  · simp only [bind, Except.bind] at h
    split at h
    · cases h
    · split at h
      · cases h
      · next v hv =>
        obtain ⟨S1, k⟩ := v
        obtain ⟨e1, e2⟩ := detachToSlot_next hv
        cases h
        exact .inr ⟨by rw [e1], e2⟩
  · simp only [bind, Except.bind] at h
    split at h
    · cases h
    · cases h; exact .inl ⟨rfl, rfl⟩

theorem detachWithPlaceholder_next {S S' : Shadow} {n : Nat}
    (h : S.detachWithPlaceholder n = .ok S') : S'.nextSlot = S.nextSlot := by
  simp only [detachWithPlaceholder, bind, Except.bind] at h
  split at h
  · cases h
  · cases h; rfl

theorem replaceWithPlaceholder_next {S S' : Shadow} {n : Nat}
    (h : S.replaceWithPlaceholder n = .ok S') : S'.nextSlot = S.nextSlot := by
  simp only [replaceWithPlaceholder, bind, Except.bind] at h
  split at h
  · cases h
  · split at h
    · cases h
    · cases h; rfl

theorem moveDetach_next {S S' : Shadow} {n p : Nat} (h : S.moveDetach n p = .ok S') :
    S'.nextSlot = S.nextSlot := by
  simp only [moveDetach] at h
  split at h
  · exact replaceWithPlaceholder_next h
  · have key : ∀ b : Bool, (if !b then S.detachWithPlaceholder n
        else Except.ok { S with arena := S.arena.detach n } : Res Shadow) = .ok S' →
        S'.nextSlot = S.nextSlot := by
      intro b hb
      cases b
      · exact detachWithPlaceholder_next hb
      · cases hb; rfl
    exact key _ h

theorem moveToPosition_next {S S' : Shadow} {n p pos : Nat} {slot : Option Nat}
    (h : S.moveToPosition n p pos = .ok (S', slot)) : OneSlot S S' slot := by
  simp only [moveToPosition, bind, Except.bind] at h
  split at h
  · cases h
  · next S1 h1 =>
    have e0 := moveDetach_next h1
    simp only [OneSlot, ← e0]
    split at h
    · split at h
      · split at h
        · cases h
        · split at h
          · cases h
          · next v hv =>
            obtain ⟨S2, k⟩ := v
            obtain ⟨e1, e2⟩ := detachToSlot_next hv
            cases h
            exact .inr ⟨by rw [e1], e2⟩
      · cases h; exact .inl ⟨rfl, rfl⟩
    · split at h
      · cases h
      · cases h; exact .inl ⟨rfl, rfl⟩

end Shadow

theorem reparentChild_next {parent pos : Nat} {S S' : Shadow} {i child : Nat} {P : Patch}
    (h : reparentChild parent pos S i child = .ok (S', P)) :
    S'.nextSlot = S.nextSlot ∧ P.displaced = none := by
  unfold reparentChild at h
  obtain ⟨S1, h1, h⟩ := res_bind h
  have h1 := Shadow.detachWithPlaceholder_next h1
  simp only at h
  split at h
  all_goals
    obtain ⟨A, -, h⟩ := res_bind h
    cases h
    exact ⟨h1, rfl⟩

theorem reparentChildren_next {S S' : Shadow} {n : Nat} {ps : List Patch}
    (h : reparentChildren S n = .ok (S', ps)) : S'.nextSlot = S.nextSlot ∧ slotsUsed ps = [] := by
  simp only [reparentChildren] at h
  split at h
  · cases h
  · next p _ =>
    have key : ∀ (l : List (Nat × Nat)) (S0 : Shadow) (out : List Patch) pos,
        S0.nextSlot = S.nextSlot → slotsUsed out = [] →
        l.foldlM (fun (So : Shadow × List Patch) (ci : Nat × Nat) => (do
          let (S, patch) ← reparentChild p pos So.1 ci.2 ci.1
          .ok (S, So.2 ++ [patch]) : Res (Shadow × List Patch))) (S0, out) = .ok (S', ps) →
        S'.nextSlot = S.nextSlot ∧ slotsUsed ps = [] := by
      intro l
      induction l with
      | nil => intro S0 out pos h1 h2 e; cases e; exact ⟨h1, h2⟩
      | cons ci l ih =>
        intro S0 out pos h1 h2 e
        simp only [List.foldlM_cons, bind, Except.bind] at e
        split at e
        · cases e
        · next v hv =>
          split at hv
          · cases hv
          · next w hw =>
            obtain ⟨S1, P⟩ := w
            obtain ⟨e1, e2⟩ := reparentChild_next hw
            cases hv
            refine ih S1 _ pos (e1.trans h1) ?_ e
            unfold slotsUsed at *
            rw [List.filterMap_append, h2, List.nil_append]
            simp [e2]
    exact key _ _ _ _ rfl rfl h

theorem convertOp_next {B : Arena TData} {ins : List Nat} {C C' : Conv} {op : EditOp}
    {ps : List Patch} (h : convertOp B ins C op = .ok (C', ps)) :
    ∃ n, C'.shadow.nextSlot = C.shadow.nextSlot + n ∧
      slotsUsed ps = List.range' C.shadow.nextSlot n := by
  cases op with
  | updateProps a b c => cases h; exact ⟨0, rfl, rfl⟩
  | setText a b t => cases h; exact ⟨0, rfl, rfl⟩
  | delete a =>
    simp only [convertOp, bind, Except.bind] at h
    split at h
    · cases h
    · next S hS => cases h; exact ⟨0, Shadow.detachWithPlaceholder_next hS, rfl⟩
  | insert b pb pos kind =>
    simp only [convertOp, bind, Except.bind] at h
    split at h
    · cases h
    · split at h
      · cases h
      · next v hv =>
        obtain ⟨S, slot⟩ := v
        have hs := Shadow.insertAtPosition_next hv
        cases h
        rcases hs with ⟨rfl, e⟩ | ⟨rfl, e⟩
        · exact ⟨0, e, by cases kind <;> rfl⟩
        · exact ⟨1, e, by cases kind <;> rfl⟩
  | move a b pb pos =>
    unfold convertOp at h
    obtain ⟨sp, -, h⟩ := res_bind h
    have hsplit : ∃ (S : Shadow) (pre : List Patch), (S.nextSlot = C.shadow.nextSlot ∧ slotsUsed pre = []) ∧
        (S.moveToPosition a sp pos >>= fun r => (Except.ok
          (⟨r.1, Arena.upd C.bToShadow b (some a)⟩,
            pre ++ [Patch.move (S.computePath a) (r.1.refWithPos sp pos) r.2]) :
              Res (Conv × List Patch))) = .ok (C', ps) := by
      simp only at h
      split at h
      · obtain ⟨⟨S, pre⟩, hv, h⟩ := res_bind h
        exact ⟨S, pre, reparentChildren_next hv, h⟩
      · obtain ⟨⟨S, pre⟩, hv, h⟩ := res_bind h
        cases hv
        exact ⟨_, _, ⟨rfl, rfl⟩, h⟩
    obtain ⟨S, pre, hpre, h⟩ := hsplit
    obtain ⟨⟨S2, slot⟩, hw, h⟩ := res_bind h
    have hs := Shadow.moveToPosition_next hw
    cases h
    have hu : ∀ P : Patch, slotsUsed (pre ++ [P]) = slotsUsed [P] := by
      intro P
      have := hpre.2
      unfold slotsUsed at *
      rw [List.filterMap_append, this, List.nil_append]
    rcases hs with ⟨rfl, e⟩ | ⟨rfl, e⟩
    · exact ⟨0, e.trans hpre.1, hu _⟩
    · refine ⟨1, e.trans (by rw [hpre.1]), (hu _).trans ?_⟩
      rw [hpre.1]; rfl

theorem convertLoop_next {B : Arena TData} {ins : List Nat} {C C' : Conv} {ops : List EditOp}
    {ps : List Patch} (h : convertLoop B ins C ops = .ok (C', ps)) :
    ∃ n, C'.shadow.nextSlot = C.shadow.nextSlot + n ∧
      slotsUsed ps = List.range' C.shadow.nextSlot n := by
  induction ops generalizing C ps with
  | nil => cases h; exact ⟨0, rfl, rfl⟩
  | cons op ops ih =>
    simp only [convertLoop, bind, Except.bind] at h
    split at h
    · cases h
    · next v hv =>
      obtain ⟨C1, ps1⟩ := v
      simp only at h
      split at h
      · cases h
      · next w hw =>
        obtain ⟨C2, ps2⟩ := w
        cases h
        obtain ⟨n1, a1, a2⟩ := convertOp_next hv
        obtain ⟨n2, b1, b2⟩ := ih hw
        refine ⟨n1 + n2, by omega, ?_⟩
        unfold slotsUsed at *
        rw [List.filterMap_append, a2, b2, a1, List.range'_append_1]

variable {H : Type} [DecidableEq H] {hashNode : HKind → Option Str → List H → H}
  {old new : Document} {ob nb : Nat}

theorem slotsUsed_eq_nil {ps : List Patch} (h : ∀ P ∈ ps, P.displaced = none) :
    slotsUsed ps = [] := by
  unfold slotsUsed
  rw [List.filterMap_eq_nil_iff]
  exact h

/-- **C16**, first half, for all documents: the slots that the patches of a generated list fill are
numbered 1, 2, 3, ... in the order of the list. -/
theorem C16_slots_numbered (old new : Document) (ps : List Patch)
    (h : diff hashNode old new = .ok ps) : ∃ n, slotsUsed ps = List.range' 1 n := by
  unfold diff at h
  split at h
  · cases h; exact ⟨0, rfl⟩
  · next nb _ _ =>
    refine ⟨0, slotsUsed_eq_nil ?_⟩
    have key : ∀ (cs : List Nat) pos ps, insertAllLoop new.arena pos cs = .ok ps →
        ∀ P ∈ ps, P.displaced = none := by
      intro cs
      induction cs with
      | nil => intro pos ps e; cases e; intro P hP; cases hP
      | cons c cs ih =>
        intro pos ps e P hP
        simp only [insertAllLoop, bind, Except.bind] at e
        split at e
        · cases e
        · next Q hQ =>
          split at e
          · cases e
          · next qs hqs =>
            cases e
            rcases List.mem_cons.1 hP with rfl | hP
            · unfold createInsertPatch at hQ
              split at hQ <;> cases hQ <;> rfl
            · exact ih _ _ hqs P hP
    exact key _ _ _ h
  · refine ⟨0, slotsUsed_eq_nil ?_⟩
    cases h
    intro P hP
    unfold removeAll at hP
    rw [List.mem_map] at hP
    obtain ⟨k, _, rfl⟩ := hP
    rfl
  · split at h
    · cases h
    · simp only [bind, Except.bind] at h
      split at h
      · cases h
      · next ps1 h1 =>
        split at h
        · cases h
        · next ps2 h2 =>
          cases h
          have e2 : slotsUsed ps2 = [] := by
            refine slotsUsed_eq_nil ?_
            unfold opaquePatches at h2
            split at h2
            · cases h2; intro P hP; cases hP
            · simp only [bind, Except.bind] at h2
              split at h2
              · cases h2
              · cases h2
                intro P hP
                rw [List.mem_map] at hP
                obtain ⟨c, _, rfl⟩ := hP
                rfl
          simp only [convertOps, bind, Except.bind] at h1
          split at h1
          · cases h1
          · next S hS =>
            split at h1
            · cases h1
            · next v hv =>
              cases h1
              obtain ⟨n, _, e⟩ := convertLoop_next (C' := v.1) (ps := v.2) hv
              refine ⟨n, ?_⟩
              have hS1 : S.nextSlot = 1 := by
                simp only [Shadow.new, bind, Except.bind] at hS
                split at hS
                · cases hS
                · split at hS
                  · cases hS
                  · cases hS; rfl
              unfold slotsUsed at *
              rw [List.filterMap_append, e, e2, List.append_nil]
              simp only [hS1]

/-! ### Definedness -/

theorem navigate_defined {A : Arena NodeData} {slots : Slots} {q : Path} {n : Nat}
    (h : navigate A slots q = .ok n) : ∃ k rest, q = k :: rest ∧ slots k ≠ none := by
  cases q with
  | nil => cases h
  | cons k rest =>
    refine ⟨k, rest, rfl, fun e => ?_⟩
    simp only [navigate, e] at h
    cases h

theorem slotParent_defined {A : Arena NodeData} {slots : Slots} {q : Path} {r : Nat × Nat}
    (h : slotParent A slots q = .ok r) : ∃ k rest, q = k :: rest ∧ slots k ≠ none := by
  simp only [slotParent] at h
  split at h
  · cases h
  · split at h
    · cases h
    · simp only [bind, Except.bind] at h
      split at h
      · cases h
      · next p hp =>
        obtain ⟨k, rest, e, hk⟩ := navigate_defined hp
        cases q with
        | nil => cases e
        | cons a as =>
          cases as with
          | nil => cases e
          | cons b bs =>
            simp only [List.dropLast_cons_cons, List.cons.injEq] at e
            exact ⟨a, b :: bs, rfl, by rw [e.1]; exact hk⟩

theorem displace_slots {A : Arena NodeData} {slots : Slots} {p pos : Nat} {slot : Option Nat}
    {k : Nat} (h : (displace A slots p pos slot).2 k ≠ none) : slots k ≠ none ∨ slot = some k := by
  unfold displace at h
  split at h
  · exact .inl h
  · next s =>
    split at h
    · exact .inl h
    · by_cases e : k = s
      · exact .inr (by rw [e])
      · exact .inl (by rw [← Arena.upd_ne slots _ e]; exact h)

theorem insertAt_defined {A A' : Arena NodeData} {slots slots' : Slots} {q : Path} {n : Nat}
    {slot : Option Nat} (h : insertAt A slots q n slot = .ok (A', slots')) :
    (∃ k rest, q = k :: rest ∧ slots k ≠ none) ∧
    ∀ k, slots' k ≠ none → slots k ≠ none ∨ slot = some k := by
  simp only [insertAt, bind, Except.bind] at h
  split at h
  · cases h
  · next r hr =>
    obtain ⟨p, pos⟩ := r
    simp only at h
    split at h
    · cases h
    · cases h
      exact ⟨slotParent_defined hr, fun k hk => displace_slots hk⟩

/-- A patch that applies has paths that start with filled slots, and fills at most the slot it
names. -/
theorem applyPatch_defined (parse : Str → Document) {A A' : Arena NodeData} {slots slots' : Slots}
    {P : Patch} (h : applyPatch parse A slots P = .ok (A', slots')) :
    (∀ q ∈ P.paths, ∃ k rest, q = k :: rest ∧ slots k ≠ none) ∧
    ∀ k, slots' k ≠ none → slots k ≠ none ∨ P.displaced = some k := by
  have one : ∀ q : Path, (∃ k rest, q = k :: rest ∧ slots k ≠ none) →
      ∀ q' ∈ [q], ∃ k rest, q' = k :: rest ∧ slots k ≠ none := by
    intro q hq q' hm
    rw [List.mem_singleton] at hm
    rw [hm]; exact hq
  have nav : ∀ (q : Path) (f : Nat → Res (Arena NodeData × Slots)),
      (∀ n A1 s1, f n = .ok (A1, s1) → s1 = slots) →
      (navigate A slots q >>= f) = .ok (A', slots') →
      (∀ q' ∈ [q], ∃ k rest, q' = k :: rest ∧ slots k ≠ none) ∧
      ∀ k, slots' k ≠ none → slots k ≠ none ∨ none = some k := by
    intro q f hf e
    simp only [bind, Except.bind] at e
    split at e
    · cases e
    · next n hn =>
      refine ⟨one q (navigate_defined hn), fun k hk => .inl ?_⟩
      rw [hf _ _ _ e] at hk; exact hk
  cases P with
  | insertElement at_ tag attrs children slot =>
    simp only [applyPatch, bind, Except.bind] at h
    split at h
    · cases h
    · obtain ⟨h1, h2⟩ := insertAt_defined h
      exact ⟨one _ h1, h2⟩
  | insertText at_ s slot =>
    obtain ⟨h1, h2⟩ := insertAt_defined h
    exact ⟨one _ h1, h2⟩
  | insertComment at_ s slot =>
    obtain ⟨h1, h2⟩ := insertAt_defined h
    exact ⟨one _ h1, h2⟩
  | remove q =>
    refine nav q _ ?_ h
    intro n A1 s1 e
    simp only [bind, Except.bind] at e
    split at e
    · cases e
    · cases e; rfl
  | setText q s =>
    refine nav q _ ?_ h
    intro n A1 s1 e
    split at e <;> cases e <;> rfl
  | setAttribute q k v =>
    refine nav q _ ?_ h
    intro n A1 s1 e
    split at e <;> cases e <;> rfl
  | removeAttribute q k =>
    refine nav q _ ?_ h
    intro n A1 s1 e
    split at e <;> cases e <;> rfl
  | updateProps q c =>
    refine nav q _ ?_ h
    intro n A1 s1 e
    split at e <;> cases e <;> rfl
  | opaqueChanged q c =>
    refine nav q _ ?_ h
    intro n A1 s1 e
    simp only [bind, Except.bind] at e
    split at e
    · cases e
    · cases e; rfl
  | move from_ to slot =>
    unfold applyPatch at h
    obtain ⟨n, hn, h⟩ := res_bind h
    have hi : ∃ A1, insertAt A1 slots to n slot = .ok (A', slots') := by
      simp only at h
      split at h
      · obtain ⟨A1, -, h⟩ := res_bind h; exact ⟨_, h⟩
      · obtain ⟨A1, -, h⟩ := res_bind h; exact ⟨_, h⟩
    obtain ⟨A1, h⟩ := hi
    obtain ⟨h1, h2⟩ := insertAt_defined h
    refine ⟨fun q hq => ?_, h2⟩
    rcases List.mem_cons.1 hq with rfl | hq
    · exact navigate_defined hn
    · exact one _ h1 q hq

/-- Whatever list is applied without error: every path starts with a slot that was filled before, by
the start of patching or by an earlier patch of the list. -/
theorem applyLoop_defined (parse : Str → Document) (ps : List Patch) {A A' : Arena NodeData}
    {slots slots' : Slots} (h : applyLoop parse A slots ps = .ok (A', slots')) :
    ∀ (i : Nat) (P : Patch), ps[i]? = some P → ∀ q ∈ P.paths, ∃ k rest, q = k :: rest ∧
      (slots k ≠ none ∨ ∃ (j : Nat) (Q : Patch), j < i ∧ ps[j]? = some Q ∧ Q.displaced = some k) := by
  induction ps generalizing A slots with
  | nil => intro i P e; simp at e
  | cons p ps ih =>
    simp only [applyLoop, bind, Except.bind] at h
    split at h
    · cases h
    · next v hv =>
      obtain ⟨A1, s1⟩ := v
      obtain ⟨h1, h2⟩ := applyPatch_defined parse hv
      intro i P e q hq
      cases i with
      | zero =>
        simp only [List.getElem?_cons_zero, Option.some.injEq] at e
        subst e
        obtain ⟨k, rest, e1, e2⟩ := h1 q hq
        exact ⟨k, rest, e1, .inl e2⟩
      | succ i =>
        simp only [List.getElem?_cons_succ] at e
        obtain ⟨k, rest, e1, e2⟩ := ih h i P e q hq
        refine ⟨k, rest, e1, ?_⟩
        rcases e2 with e2 | ⟨j, Q, hj, hQ, hk⟩
        · rcases h2 k e2 with e3 | e3
          · exact .inl e3
          · exact .inr ⟨0, p, by omega, rfl, e3⟩
        · exact .inr ⟨j + 1, Q, by omega, by simpa using hQ, hk⟩

/-- **C16**, second half, partial (same restrictions as `C01_round_trip_opaque_partial`): every path in a
generated patch list starts with slot 0, the body, or with a slot that an earlier patch of the list has
filled. -/
theorem C16_slots_defined_before_use_partial (h : Comparable old new ob nb)
    (hc : NoCollision hashNode (buildTree old ob) (diffable new) nb)
    (ho : OpaqueAgree hashNode old new ob nb)
    (hf : NoMoveBelowSelf hashNode old new ob nb ∨ NoInversion hashNode old new ob nb) :
    ∃ ps, diff hashNode old new = .ok ps ∧
      ∀ (i : Nat) (P : Patch), ps[i]? = some P → ∀ q ∈ P.paths, ∃ k rest, q = k :: rest ∧
        (k = 0 ∨ ∃ (j : Nat) (Q : Patch), j < i ∧ ps[j]? = some Q ∧ Q.displaced = some k) := by
  let parse : Str → Document := fun _ => Document.new
  obtain ⟨f, hd, hb⟩ := h.docRel_old
  obtain ⟨S0, ps, w, cn, hS0, e, ht, hcn, hm, hfr⟩ := h.run hc ho hf (lawful_native parse _) hd
    (slots := Arena.upd (fun _ => none) 0 (some ob)) (by simp)
  have hp := h.plan hashNode hc ho hb
  refine ⟨_, e, fun i P hP q hq => ?_⟩
  rcases Nat.lt_or_ge i ps.length with hi | hi
  · rw [List.getElem?_append_left hi] at hP
    have ha := ht.apply
    rw [← applyLoop_eq] at ha
    obtain ⟨k, rest, e1, e2⟩ := applyLoop_defined parse ps ha i P hP q hq
    refine ⟨k, rest, e1, ?_⟩
    rcases e2 with e2 | ⟨j, Q, hj, hQ, hk⟩
    · left
      apply Classical.byContradiction
      intro hk
      exact e2 (by show Arena.upd (fun _ => none) 0 (some ob) k = none; rw [Arena.upd_ne _ _ hk])
    · refine .inr ⟨j, Q, hj, ?_, hk⟩
      rw [List.getElem?_append_left (by omega)]; exact hQ
  · rw [List.getElem?_append_right hi] at hP
    obtain ⟨c, hcm, rfl⟩ := List.mem_map.1 (List.mem_of_getElem? hP)
    have hq' : q = S0.computePath c.1 := by simpa [Patch.paths] using hq
    obtain ⟨S', hS', hSi⟩ := Shadow.new_init hb.wf hb.pos hb.root
    rw [hS0] at hS'; cases hS'
    have hlt : c.1 < (buildTree old ob).next := by
      unfold opaqueChanges at hcm
      obtain ⟨p, hpp, e1⟩ := List.mem_filterMap.1 hcm
      split at e1
      · cases e1
      · split at e1
        · cases e1
        · cases e1; exact (hp.lt p.1 p.2 hpp).1
    have hl := hb.leads hSi (slots := Arena.upd (fun _ => none) 0 (some ob)) (by simp) hlt
    rw [← hq'] at hl
    have : ∀ {q n}, Leads old.arena (Arena.upd (fun _ => none) 0 (some ob)) q n →
        ∃ rest, q = 0 :: rest := by
      intro q n hl
      induction hl with
      | @slot k r hs =>
        by_cases hk : k = 0
        · exact ⟨[], by rw [hk]⟩
        · rw [Arena.upd_ne _ _ hk] at hs; cases hs
      | child _ _ ih =>
        obtain ⟨rest, e⟩ := ih
        exact ⟨_, by rw [e]; rfl⟩
    obtain ⟨rest, e1⟩ := this hl
    exact ⟨0, rest, e1, .inl rfl⟩

/-- The hypotheses hold for `ex1`, `ex2`; five slots are used and some path starts with a slot
other than 0. -/
example : Comparable (.ofForest ex1) (.ofForest ex2) 2 2 ∧
    NoCollision Shape.node (buildTree (.ofForest ex1) 2) (diffable (.ofForest ex2)) 2 ∧
    OpaqueAgree Shape.node (.ofForest ex1) (.ofForest ex2) 2 2 ∧
    NoMoveBelowSelf Shape.node (.ofForest ex1) (.ofForest ex2) 2 2 ∧
    (match diff Shape.node (.ofForest ex1) (.ofForest ex2) with
      | .ok ps => decide (slotsUsed ps = [1, 2, 3, 4, 5] ∧
          ∃ P ∈ ps, ∃ q ∈ P.paths, q.head? = some 3)
      | .error _ => false) = true :=
  ⟨comparable_ofForest (by decide +kernel) (by decide +kernel), noCollision_shape _ _ _,
    (opaqueFixed_ofForest (by decide +kernel) (by decide +kernel)).agree,
    noMoveBelowSelf_of_movesSafe (by decide +kernel), by decide +kernel⟩

/-! ### C16 fails in general -/

def manyB : Html := ex "b" [] [ex "b" [] [], ex "b" [] [], ex "b" [] [], ex "b" [] [], ex "b" [] []]

/-- Old content of the counterexample. -/
def slotBad1 : List Html :=
  [ex "u" [("c", "1")] [.text "1".toList, .comment "2".toList, .text "3".toList,
    ex "d" [("c", "1")] [.text "t".toList, .text "r".toList,
      ex "p" [] [ex "d" [("i", "1")] [manyB, .text "q".toList]]]],
   ex "u" [("z", "1")] [ex "d" [("z", "1")] [ex "p" [("z", "1")] [ex "d" [("z", "1")]
    [ex "c" [] [ex "e" [] []]]]]]]

/-- New content: an element has become opaque. -/
def slotBad2 : List Html :=
  [ex "u" [("i", "1")] [ex "d" [("i", "1")] [ex "p" [] [ex "d" [("c", "1")]
    [manyB, ex "c" [("data-hotmeal-opaque", "")] []]]]]]

/-- Does some path start with a slot that no patch of the list fills? -/
def usesUnfilled (ps : List Patch) : Bool :=
  ps.any fun P => P.paths.any fun
    | [] => false
    | k :: _ => decide (k ≠ 0) && ps.all fun Q => decide (Q.displaced ≠ some k)

/-- **C16**, second half, is violated: there are documents and a collision-free hash for which a
generated patch addresses a slot that no patch of the list ever fills. -/
theorem C16_violated : ∃ cs ds : List Html, Html.validL cs = true ∧ Html.validL ds = true ∧
    (∀ A B nb, NoCollision Shape.node A B nb) ∧ ∃ ps, diff Shape.node (.ofForest cs) (.ofForest ds) = .ok ps ∧
      ∃ P ∈ ps, ∃ k rest, (k :: rest) ∈ P.paths ∧ k ≠ 0 ∧ ∀ Q ∈ ps, Q.displaced ≠ some k := by
  refine ⟨slotBad1, slotBad2, by decide +kernel, by decide +kernel, noCollision_shape, ?_⟩
  have h : (match diff Shape.node (.ofForest slotBad1) (.ofForest slotBad2) with
    | .error _ => false
    | .ok ps => usesUnfilled ps) = true := by decide +kernel
  cases e : diff Shape.node (.ofForest slotBad1) (.ofForest slotBad2) with
  | error x => rw [e] at h; cases h
  | ok ps =>
    rw [e] at h
    refine ⟨ps, rfl, ?_⟩
    unfold usesUnfilled at h
    obtain ⟨P, hP, h⟩ := List.any_eq_true.1 h
    obtain ⟨q, hq, h⟩ := List.any_eq_true.1 h
    cases q with
    | nil => cases h
    | cons k rest =>
      simp only [Bool.and_eq_true, decide_eq_true_eq, List.all_eq_true] at h
      exact ⟨P, hP, k, rest, hq, h.1, fun Q hQ => h.2 Q hQ⟩

end Hotmeal
