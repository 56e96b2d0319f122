import Verif.Props.RoundTrip
import Verif.Lemmas.Content

set_option autoImplicit false
set_option linter.unusedSectionVars false

/-!
# C25, C26: applying patch lists

The statements hold for arbitrary patches, generated or not.
-/

namespace Hotmeal

variable (parse : Str → Document)

/-! ### C25 -/

/-- **C25.** An empty patch list changes nothing. -/
theorem C25_empty_is_identity (D : Document) :
    applyPatches parse D [] = .ok D ∧ applyPatchesKeep parse D [] = (D, none) := ⟨rfl, rfl⟩

/-- A document without a body, which a non-empty list would give one. -/
def noBodyDoc : Document := ⟨(Arena.newNode ⟨0, fun _ => none, fun _ => [], fun _ => default⟩
  (Document.elem "html".toList)).1, 0, none⟩
example : noBodyDoc.body = none ∧ (noBodyDoc.ensureBody).1.body = some 1 := by decide +kernel

/-- Patch lists compose when they address the same slot map: this is how the loop proceeds. -/
theorem applyLoop_append (ps qs : List Patch) : ∀ (A : Arena NodeData) (slots : Slots),
    applyLoop parse A slots (ps ++ qs) =
      (applyLoop parse A slots ps).bind fun r => applyLoop parse r.1 r.2 qs := by
  induction ps with
  | nil => intro A slots; rfl
  | cons p ps ih =>
    intro A slots
    simp only [List.cons_append, applyLoop, bind, Except.bind]
    cases applyPatch parse A slots p with
    | error e => rfl
    | ok r => exact ih r.1 r.2

/-! ### What a path leads to -/

/-- `Leads A slots path n`: starting from a slot root and following child indices one reaches `n`. -/
inductive Leads (A : Arena NodeData) (slots : Slots) : Path → Nat → Prop
  | slot {s r : Nat} (h : slots s = some r) : Leads A slots [s] r
  | child {path : Path} {n i c : Nat} (h : Leads A slots path n)
      (hc : (A.children n)[i]? = some c) : Leads A slots (path ++ [i]) c

variable {A : Arena NodeData} {slots : Slots}

theorem Leads.ne_nil {path : Path} {n : Nat} (h : Leads A slots path n) : path ≠ [] := by
  cases h <;> simp

theorem navLoop_bind (A : Arena NodeData) (n : Nat) (l r : List Nat) :
    navLoop A n (l ++ r) = (navLoop A n l).bind fun m => navLoop A m r := by
  induction l generalizing n with
  | nil => rfl
  | cons i l ih =>
    simp only [List.cons_append, navLoop]
    cases (A.children n)[i]? with
    | none => rfl
    | some c => exact ih c

theorem navigate_append' (path : Path) (hp : path ≠ []) (r : List Nat) :
    navigate A slots (path ++ r) = (navigate A slots path).bind fun m => navLoop A m r := by
  cases path with
  | nil => exact absurd rfl hp
  | cons s path =>
    simp only [List.cons_append, navigate]
    cases slots s with
    | none => rfl
    | some n => exact navLoop_bind A n path r

theorem Leads.navigate {path : Path} {n : Nat} (h : Leads A slots path n) :
    navigate A slots path = .ok n := by
  induction h with
  | slot h => simp [Hotmeal.navigate, h, navLoop]
  | child h hc ih =>
    rw [navigate_append' _ h.ne_nil, ih]
    simp [Except.bind, navLoop, hc]

theorem snoc_cases {α : Type} (l : List α) : l = [] ∨ ∃ l' a, l = l' ++ [a] := by
  rcases List.eq_nil_or_concat l with h | ⟨l', a, h⟩
  · exact .inl h
  · exact .inr ⟨l', a, by simpa using h⟩

/-- The three ways in which a path can fail to lead anywhere. -/
inductive LeadsNowhere (A : Arena NodeData) (slots : Slots) : Path → Err → Prop
  | empty : LeadsNowhere A slots [] .emptyPath
  | slot {s : Nat} {rest : List Nat} (h : slots s = none) :
      LeadsNowhere A slots (s :: rest) (.slotNotFound s)
  | child {path : Path} {n i : Nat} {rest : List Nat} (h : Leads A slots path n)
      (hc : (A.children n).length ≤ i) : LeadsNowhere A slots (path ++ i :: rest) (.pathOutOfBounds i)

theorem LeadsNowhere.navigate {path : Path} {e : Err} (h : LeadsNowhere A slots path e) :
    navigate A slots path = .error e := by
  cases h with
  | empty => rfl
  | slot h => simp [Hotmeal.navigate, h]
  | child h hc =>
    rw [navigate_append' _ h.ne_nil, h.navigate]
    simp [Except.bind, navLoop, List.getElem?_eq_none hc]

theorem leads_total (path : Path) : (∃ n, Leads A slots path n) ∨ ∃ e, LeadsNowhere A slots path e := by
  generalize hk : path.length = k
  induction k generalizing path with
  | zero =>
    have : path = [] := List.length_eq_zero_iff.1 hk
    subst this
    exact .inr ⟨_, .empty⟩
  | succ k ih =>
    rcases snoc_cases path with rfl | ⟨l, i, rfl⟩
    · simp at hk
    · rw [List.length_append, List.length_singleton] at hk
      rcases ih l (by omega) with ⟨n, hn⟩ | ⟨e, he⟩
      · cases hc : (A.children n)[i]? with
        | some c => exact .inl ⟨c, hn.child hc⟩
        | none =>
          exact .inr ⟨_, LeadsNowhere.child (rest := []) hn (List.getElem?_eq_none_iff.1 hc)⟩
      · cases he with
        | empty =>
          cases hs : slots i with
          | some r => exact .inl ⟨r, .slot hs⟩
          | none => exact .inr ⟨_, .slot (rest := []) hs⟩
        | slot h => exact .inr ⟨_, .slot h⟩
        | @child path n j rest h hc =>
          refine .inr ⟨.pathOutOfBounds j, ?_⟩
          rw [List.append_assoc, List.cons_append]
          exact .child h hc

/-- Navigation finds exactly the node a path leads to. -/
theorem navigate_ok_iff {path : Path} {n : Nat} : navigate A slots path = .ok n ↔ Leads A slots path n := by
  constructor
  · intro h
    rcases leads_total (A := A) (slots := slots) path with ⟨m, hm⟩ | ⟨e, he⟩
    · rw [hm.navigate] at h; cases h; exact hm
    · rw [he.navigate] at h; cases h
  · exact Leads.navigate

theorem navigate_error_iff {path : Path} {e : Err} :
    navigate A slots path = .error e ↔ LeadsNowhere A slots path e := by
  constructor
  · intro h
    rcases leads_total (A := A) (slots := slots) path with ⟨m, hm⟩ | ⟨e, he⟩
    · rw [hm.navigate] at h; cases h
    · rw [he.navigate] at h; cases h; exact he
  · exact LeadsNowhere.navigate

/-! ### C26: which error is returned -/

/-- The path of the node a patch starts from; inserts have none. -/
def Patch.target : Patch → Option Path
  | .remove p => some p
  | .setText p _ => some p
  | .setAttribute p _ _ => some p
  | .removeAttribute p _ => some p
  | .updateProps p _ => some p
  | .opaqueChanged p _ => some p
  | .move p _ _ => some p
  | _ => none

/-- The path of an insertion point. -/
def Patch.insertionPoint : Patch → Option Path
  | .insertElement at_ _ _ _ _ => some at_
  | .insertText at_ _ _ => some at_
  | .insertComment at_ _ _ => some at_
  | _ => none

/-- **C26.** A patch whose target path is empty, starts with an unknown slot or has an index beyond the
children fails with `EmptyPath`, `SlotNotFound` or `PathOutOfBounds`. -/
theorem C26_bad_target {p : Patch} {path : Path} (hp : p.target = some path) {e : Err}
    (h : LeadsNowhere A slots path e) : applyPatch parse A slots p = .error e := by
  have := h.navigate
  cases p <;> simp only [Patch.target, Option.some.injEq, reduceCtorEq] at hp <;> subst hp <;>
    simp only [applyPatch, this, bind, Except.bind]

/-- A failing insertion point: too short, or its parent path leads nowhere. -/
inductive NoPoint (A : Arena NodeData) (slots : Slots) : Path → Err → Prop
  | short {path : Path} (h : path.length < 2) : NoPoint A slots path .emptyPath
  | parent {path : Path} {i : Nat} {e : Err} (hp : path ≠ []) (h : LeadsNowhere A slots path e) :
      NoPoint A slots (path ++ [i]) e

theorem NoPoint.slotParent {path : Path} {e : Err} (h : NoPoint A slots path e) :
    slotParent A slots path = .error e := by
  unfold Hotmeal.slotParent
  cases h with
  | short h => rw [if_pos h]
  | @parent path i e hp h =>
    have : ¬ (path ++ [i]).length < 2 := by
      cases path with
      | nil => exact absurd rfl hp
      | cons a l => simp
    rw [if_neg this]
    simp [List.getLast?_append, h.navigate, bind, Except.bind]

theorem NoPoint.insertAt {path : Path} {e : Err} (h : NoPoint A slots path e) (n : Nat)
    (slot : Option Nat) : insertAt A slots path n slot = .error e := by
  simp only [Hotmeal.insertAt, h.slotParent, bind, Except.bind]

mutual
theorem createInsertContent_spec : ∀ (c : InsertContent) (A : Arena NodeData), A.WF →
    ∃ A' m, createInsertContent A c = .ok (A', m) ∧ Grows A A' ∧ A.next ≤ m ∧ m < A'.next ∧
      A'.parent m = none
  | .element tag attrs children, A, h => by
    have hn := Grows.newNode h ⟨.element tag attrs, .html⟩
    obtain ⟨A', e, hA'⟩ := appendInsertContents_spec children
      (A.newNode ⟨.element tag attrs, .html⟩).1 A.next hn.wf (by simp)
    have hle := hA'.le
    simp only [Arena.newNode_next] at hle
    refine ⟨A', A.next, ?_, ?_, Nat.le_refl _, by omega, ?_⟩
    · simp only [createInsertContent, Arena.newNode_snd, e, bind, Except.bind]
    · refine ⟨hA'.wf, by omega, ?_, ?_, ?_⟩
      · intro i hi
        rw [hA'.parent i (by simp; omega)]; exact hn.parent i hi
      · intro i hi
        rw [hA'.children i (by simp; omega) (by omega)]; exact hn.children i hi
      · intro i hi
        rw [hA'.data i (by simp; omega)]; exact hn.data i hi
    · rw [hA'.parent _ (by simp), h.newNode_parent]
      exact h.parent_ge (Nat.le_refl _)
  | .text s, A, h => ⟨_, _, rfl, Grows.newNode h _, Nat.le_refl _, by simp, by
      show Arena.upd A.parent A.next none A.next = none
      rw [Arena.upd_apply, if_pos rfl]⟩
  | .comment s, A, h => ⟨_, _, rfl, Grows.newNode h _, Nat.le_refl _, by simp, by
      show Arena.upd A.parent A.next none A.next = none
      rw [Arena.upd_apply, if_pos rfl]⟩
theorem appendInsertContents_spec : ∀ (cs : List InsertContent) (A : Arena NodeData) (n : Nat), A.WF →
    n < A.next → ∃ A', appendInsertContents A n cs = .ok A' ∧ GrowsAt n A A'
  | [], A, n, h, _ => ⟨A, rfl, h, Nat.le_refl _, fun _ _ => rfl, fun _ _ _ => rfl, fun _ _ => rfl⟩
  | c :: cs, A, n, h, hn => by
    obtain ⟨A1, m, e1, h1, hm, hm', hmp⟩ := createInsertContent_spec c A h
    have hle := h1.le
    have hanc : ¬ A1.Anc m n := by
      intro ha
      have key : ∀ x, A1.Anc m x → x < A.next → False := by
        intro x hx
        induction hx with
        | refl => intro h; omega
        | step hq _ ih =>
          intro hlt
          rw [h1.parent _ hlt] at hq
          exact ih (h.lt_of_parent _ _ hq).2
      exact key n ha hn
    have e2 := h1.wf.append_ok hanc
    have hw2 := h1.wf.appendRaw (p := n) (c := m) (by omega) hm' hanc
    have er := Arena.appendRaw_of_parent_none (p := n) hmp
    obtain ⟨A', e3, h3⟩ := appendInsertContents_spec cs (A1.appendRaw n m) n hw2 (by
      rw [er]; show n < A1.next; omega)
    have hle3 : A1.next ≤ A'.next := by have := h3.le; rw [er] at this; exact this
    refine ⟨A', ?_, h3.wf, by omega, ?_, ?_, ?_⟩
    · simp only [appendInsertContents, e1, e2, e3, bind, Except.bind]
    · intro i hi
      rw [h3.parent i (by rw [er]; show i < A1.next; omega), er]
      show Arena.upd A1.parent m (some n) i = _
      rw [Arena.upd_apply, if_neg (by omega), h1.parent i hi]
    · intro i hi hne
      rw [h3.children i (by rw [er]; show i < A1.next; omega) hne, er]
      show Arena.upd A1.children n _ i = _
      rw [Arena.upd_apply, if_neg hne, h1.children i hi]
    · intro i hi
      rw [h3.data i (by rw [er]; show i < A1.next; omega), er]
      exact h1.data i hi
end

/-- Only the slot roots and what hangs below them matter for navigation. -/
theorem leads_grows {B : Arena NodeData} (hA : A.WF) (hs : ∀ s r, slots s = some r → r < A.next)
    (h : Grows A B) {path : Path} {n : Nat} (hl : Leads A slots path n) :
    n < A.next ∧ Leads B slots path n := by
  induction hl with
  | slot h' => exact ⟨hs _ _ h', .slot h'⟩
  | child _ hc ih =>
    refine ⟨(hA.lt_of_parent _ _ ((hA.mem_iff _ _).1 (List.mem_of_getElem? hc))).1, ih.2.child ?_⟩
    rw [h.children _ ih.1]; exact hc

theorem leadsNowhere_grows {B : Arena NodeData} (hA : A.WF)
    (hs : ∀ s r, slots s = some r → r < A.next) (h : Grows A B) {path : Path} {e : Err}
    (hl : LeadsNowhere A slots path e) : LeadsNowhere B slots path e := by
  cases hl with
  | empty => exact .empty
  | slot h' => exact .slot h'
  | child h' hc =>
    obtain ⟨h1, h2⟩ := leads_grows hA hs h h'
    exact .child h2 (by rw [h.children _ h1]; exact hc)

theorem noPoint_grows {B : Arena NodeData} (hA : A.WF)
    (hs : ∀ s r, slots s = some r → r < A.next) (h : Grows A B) {path : Path} {e : Err}
    (hl : NoPoint A slots path e) : NoPoint B slots path e := by
  cases hl with
  | short h' => exact .short h'
  | parent hp h' => exact .parent hp (leadsNowhere_grows hA hs h h')

/-- **C26.** An insert whose position path is shorter than two, or whose parent path leads nowhere,
fails with `EmptyPath` or the error of the parent path. -/
theorem C26_bad_insertion_point (hA : A.WF) (hs : ∀ s r, slots s = some r → r < A.next) {p : Patch}
    {path : Path} (hp : p.insertionPoint = some path) {e : Err} (h : NoPoint A slots path e) :
    applyPatch parse A slots p = .error e := by
  cases p <;> simp only [Patch.insertionPoint, Option.some.injEq, reduceCtorEq] at hp <;> subst hp
  case insertElement at_ tag attrs children slot =>
    have hn := Grows.newNode hA ⟨.element tag attrs, .html⟩
    obtain ⟨A', e', hA'⟩ := appendInsertContents_spec children
      (A.newNode ⟨.element tag attrs, .html⟩).1 A.next hn.wf (by simp)
    have hg : Grows A A' := by
      have hle := hA'.le
      simp only [Arena.newNode_next] at hle
      refine ⟨hA'.wf, by omega, ?_, ?_, ?_⟩
      · intro i hi
        rw [hA'.parent i (by simp; omega)]; exact hn.parent i hi
      · intro i hi
        rw [hA'.children i (by simp; omega) (by omega)]; exact hn.children i hi
      · intro i hi
        rw [hA'.data i (by simp; omega)]; exact hn.data i hi
    simp only [applyPatch, Arena.newNode_snd, e', bind, Except.bind]
    exact (noPoint_grows hA hs hg h).insertAt _ _
  case insertText at_ s slot =>
    simp only [applyPatch]
    exact (noPoint_grows hA hs (Grows.newNode hA _) h).insertAt _ _
  case insertComment at_ s slot =>
    simp only [applyPatch]
    exact (noPoint_grows hA hs (Grows.newNode hA _) h).insertAt _ _

/-- **C26.** SetText on something that is neither text nor comment fails with `NotATextNode`. -/
theorem C26_not_a_text_node {path : Path} {n : Nat} (h : Leads A slots path n) (t : Str)
    (h1 : ∀ s, (A.data n).kind ≠ .text s) (h2 : ∀ s, (A.data n).kind ≠ .comment s) :
    applyPatch parse A slots (.setText path t) = .error .notATextNode := by
  simp only [applyPatch, h.navigate, bind, Except.bind]
  rcases hd : A.data n with ⟨k, ns⟩
  rw [hd] at h1 h2
  cases k with
  | text s => exact absurd rfl (h1 s)
  | comment s => exact absurd rfl (h2 s)
  | _ => rfl

/-- **C26.** SetAttribute and RemoveAttribute on a non-element fail with `NotAnElement`. -/
theorem C26_not_an_element {path : Path} {n : Nat} (h : Leads A slots path n) (q : QualName) (v : Str)
    (h1 : ∀ tag attrs, (A.data n).kind ≠ .element tag attrs) :
    applyPatch parse A slots (.setAttribute path q v) = .error .notAnElement ∧
    applyPatch parse A slots (.removeAttribute path q) = .error .notAnElement := by
  simp only [applyPatch, h.navigate, bind, Except.bind]
  rcases hd : A.data n with ⟨k, ns⟩
  rw [hd] at h1
  cases k with
  | element tag attrs => exact absurd rfl (h1 tag attrs)
  | _ => exact ⟨rfl, rfl⟩

/-- **C26.** A Move whose target is not a valid position once its node has been taken out fails with
the error of that position. -/
theorem C26_bad_move_target {from_ to : Path} {slot : Option Nat} {n : Nat} {A' : Arena NodeData} {e : Err}
    (h : Leads A slots from_ n)
    (h' : (if 1 < from_.length then replaceByEmpty A n else .ok (A.detach n)) = .ok A')
    (he : NoPoint A' slots to e) : applyPatch parse A slots (.move from_ to slot) = .error e := by
  simp only [applyPatch, h.navigate, bind, Except.bind]
  split at h'
  · next hl => rw [if_pos hl, h']; exact he.insertAt _ _
  · next hl => rw [if_neg hl]; cases h'; exact he.insertAt _ _

/-! ### C26: the list stops at the first error -/

/-- The result of `apply_patches` in terms of the state it leaves behind. -/
theorem applyPatches_keep (D : Document) (ps : List Patch) :
    applyPatches parse D ps = match applyPatchesKeep parse D ps with
      | (D', none) => .ok D'
      | (_, some e) => .error e := by
  have key : ∀ (ps : List Patch) (A : Arena NodeData) (slots : Slots),
      (applyLoop parse A slots ps).map Prod.fst = match applyKeep parse A slots ps with
        | (A', none) => .ok A'
        | (_, some e) => .error e := by
    intro ps
    induction ps with
    | nil => intro A slots; rfl
    | cons p ps ih =>
      intro A slots
      simp only [applyLoop, applyKeep, bind, Except.bind]
      cases applyPatch parse A slots p with
      | error e => rfl
      | ok r => exact ih r.1 r.2
  unfold applyPatches applyPatchesKeep
  split
  · rfl
  · have := key ps (initSlots D).1.arena (initSlots D).2
    simp only [bind, Except.bind]
    generalize applyLoop parse (initSlots D).1.arena (initSlots D).2 ps = r at this ⊢
    generalize applyKeep parse (initSlots D).1.arena (initSlots D).2 ps = k at this ⊢
    rcases k with ⟨A', _ | e⟩
    · cases r with
      | error e => simp [Except.map] at this
      | ok r => simp only [Except.map, Except.ok.injEq] at this; simp [this]
    · cases r with
      | error e' => simp only [Except.map, Except.error.injEq] at this; simp [this]
      | ok r => simp [Except.map] at this

/-- **C26.** If the patches `ps` apply and the next one fails, then `apply_patches` returns its error
whatever follows, and leaves the state `errorArena` of that patch, applied after `ps`. -/
theorem C26_stops_at_first_error (D : Document) (ps : List Patch) (p : Patch) (qs : List Patch)
    (A' : Arena NodeData) (slots' : Slots) (e : Err)
    (hps : applyLoop parse (initSlots D).1.arena (initSlots D).2 ps = .ok (A', slots'))
    (hp : applyPatch parse A' slots' p = .error e) :
    applyPatches parse D (ps ++ p :: qs) = .error e ∧
    applyPatchesKeep parse D (ps ++ p :: qs) =
      ({ (initSlots D).1 with arena := errorArena A' slots' p }, some e) := by
  have hk : applyPatchesKeep parse D (ps ++ p :: qs) =
      ({ (initSlots D).1 with arena := errorArena A' slots' p }, some e) := by
    have key : ∀ (ps : List Patch) (A : Arena NodeData) (slots : Slots),
        applyLoop parse A slots ps = .ok (A', slots') →
        applyKeep parse A slots (ps ++ p :: qs) = (errorArena A' slots' p, some e) := by
      intro ps
      induction ps with
      | nil =>
        intro A slots h
        simp only [applyLoop, Except.ok.injEq, Prod.mk.injEq] at h
        obtain ⟨rfl, rfl⟩ := h
        simp only [List.nil_append, applyKeep, hp]
      | cons q ps ih =>
        intro A slots h
        simp only [applyLoop, bind, Except.bind] at h
        simp only [List.cons_append, applyKeep]
        cases hq : applyPatch parse A slots q with
        | error e => rw [hq] at h; cases h
        | ok r => rw [hq] at h; exact ih r.1 r.2 h
    unfold applyPatchesKeep
    rw [if_neg (by simp)]
    simp only [key ps _ _ hps]
  refine ⟨?_, hk⟩
  rw [applyPatches_keep, hk]

/-- **C26.** Every error of `apply_patches` is the error of the first failing patch. -/
theorem C26_error_from_first_failing (D : Document) (ps : List Patch) (e : Err)
    (h : applyPatches parse D ps = .error e) :
    ∃ l p r A' slots', ps = l ++ p :: r ∧
      applyLoop parse (initSlots D).1.arena (initSlots D).2 l = .ok (A', slots') ∧
      applyPatch parse A' slots' p = .error e := by
  have key : ∀ (ps : List Patch) (A : Arena NodeData) (slots : Slots),
      applyLoop parse A slots ps = .error e → ∃ l p r A' slots', ps = l ++ p :: r ∧
        applyLoop parse A slots l = .ok (A', slots') ∧ applyPatch parse A' slots' p = .error e := by
    intro ps
    induction ps with
    | nil => intro A slots h; cases h
    | cons p ps ih =>
      intro A slots h
      simp only [applyLoop, bind, Except.bind] at h
      cases hq : applyPatch parse A slots p with
      | error e' =>
        rw [hq] at h
        simp only [Except.error.injEq] at h
        subst h
        exact ⟨[], p, ps, A, slots, rfl, rfl, hq⟩
      | ok r =>
        rw [hq] at h
        obtain ⟨l, p', r', A', s', rfl, h2, h3⟩ := ih r.1 r.2 h
        refine ⟨p :: l, p', r', A', s', rfl, ?_, h3⟩
        simp only [applyLoop, bind, Except.bind, hq]
        exact h2
  unfold applyPatches at h
  split at h
  · cases h
  · simp only [bind, Except.bind] at h
    cases hl : applyLoop parse (initSlots D).1.arena (initSlots D).2 ps with
    | error e' =>
      rw [hl] at h
      simp only [Except.error.injEq] at h
      subst h
      exact key ps _ _ hl
    | ok r => rw [hl] at h; cases h

/-! ### C26: what a failing patch leaves behind -/

/-- **C26, except for Move.** A failing patch that is not a Move leaves every existing node as it
was: it may only have created unattached nodes. For a Move see `C26_failed_move_loses_node`. -/
theorem C26_failed_patch_changes_nothing_partial (hA : A.WF) (p : Patch)
    (hp : ∀ f t s, p ≠ .move f t s) : Grows A (errorArena A slots p) := by
  have hrefl : Grows A A := ⟨hA, Nat.le_refl _, fun _ _ => rfl, fun _ _ => rfl, fun _ _ => rfl⟩
  cases p with
  | insertElement at_ tag attrs children slot =>
    have hn := Grows.newNode hA ⟨.element tag attrs, .html⟩
    obtain ⟨A', e', hA'⟩ := appendInsertContents_spec children
      (A.newNode ⟨.element tag attrs, .html⟩).1 A.next hn.wf (by simp)
    simp only [errorArena, Arena.newNode_snd, e']
    have hle := hA'.le
    simp only [Arena.newNode_next] at hle
    refine ⟨hA'.wf, by omega, ?_, ?_, ?_⟩
    · intro i hi
      rw [hA'.parent i (by simp; omega)]; exact hn.parent i hi
    · intro i hi
      rw [hA'.children i (by simp; omega) (by omega)]; exact hn.children i hi
    · intro i hi
      rw [hA'.data i (by simp; omega)]; exact hn.data i hi
  | insertText at_ s slot => exact Grows.newNode hA _
  | insertComment at_ s slot => exact Grows.newNode hA _
  | move f t s => exact absurd rfl (hp f t s)
  | _ => exact hrefl

theorem anc_lt (hA : A.WF) {n m : Nat} (hn : n < A.next)
    (hm : A.Anc n m) : m < A.next := by
  induction hm with
  | refl => exact hn
  | step hp _ ih => exact (hA.lt_of_parent _ _ hp).1

/-- Old nodes are serialized as before. -/
theorem Grows.toHtml {D : Document} {B : Arena NodeData} (hA : D.arena.WF) (h : Grows D.arena B)
    (hr : D.root < D.arena.next) : ({ D with arena := B } : Document).toHtml = D.toHtml := by
  unfold Document.toHtml
  simp only [serialize_eq]
  congr 2
  exact Arena.tree_congr hA h.wf _ (fun m hm =>
    ⟨h.children m (anc_lt hA hr hm), h.data m (anc_lt hA hr hm)⟩)

/-- **C26, except for Move.** The HTML after the error is that after the patches before the failing
one, if these left a tree. -/
theorem C26_error_keeps_earlier_effect_partial (D : Document) (ps : List Patch) (p : Patch)
    (qs : List Patch) (A' : Arena NodeData) (slots' : Slots) (e : Err) (D' : Document)
    (hps : applyLoop parse (initSlots D).1.arena (initSlots D).2 ps = .ok (A', slots'))
    (hp : applyPatch parse A' slots' p = .error e) (hm : ∀ f t s, p ≠ .move f t s)
    (hne : ps ≠ []) (hD' : applyPatches parse D ps = .ok D') (hw : D'.arena.WF)
    (hr : D'.root < D'.arena.next) :
    (applyPatchesKeep parse D (ps ++ p :: qs)).1.toHtml = D'.toHtml := by
  rw [(C26_stops_at_first_error parse D ps p qs A' slots' e hps hp).2]
  unfold applyPatches at hD'
  rw [if_neg (by simpa using hne)] at hD'
  simp only [bind, Except.bind, hps, Except.ok.injEq] at hD'
  subst hD'
  exact Grows.toHtml (D := { (initSlots D).1 with arena := A' }) hw
    (C26_failed_patch_changes_nothing_partial hw p hm) hr

/-! ### Concrete cases -/

/-- A parser that is never called below. -/
def noParse : Str → Document := fun _ => Document.new

/-- Each error is returned by some patch on a concrete document; the first patch of the list has its
effect and the third is not applied. -/
example :
    let D := Document.ofForest [ex "b" [] [.text "x".toList], .text "y".toList]
    let first : Patch := .setText [0, 1] "z".toList
    let last : Patch := .remove [0, 0]
    let run := fun p => let r := applyPatchesKeep noParse D [first, p, last]
      (String.ofList r.1.toBodyHtml, r.2)
    run (.remove []) = ("<b>x</b>z", some .emptyPath) ∧
    run (.insertText [0] "t".toList none) = ("<b>x</b>z", some .emptyPath) ∧
    run (.insertElement [5, 0] "p".toList [] [.text "t".toList] (some 1)) =
      ("<b>x</b>z", some (.slotNotFound 5)) ∧
    run (.opaqueChanged [0, 2, 4] []) = ("<b>x</b>z", some (.pathOutOfBounds 2)) ∧
    run (.setText [0, 0] []) = ("<b>x</b>z", some .notATextNode) ∧
    run (.removeAttribute [0, 1] ⟨none, [], "id".toList⟩) = ("<b>x</b>z", some .notAnElement) ∧
    run (.updateProps [0, 0] []) = ("z", none) := by
  decide +kernel

/-- **C26** is violated for Move: a Move with an unknown target slot returns an error, but its node is
gone from the document. -/
theorem C26_failed_move_loses_node :
    let D := Document.ofForest [ex "b" [] [.text "x".toList], .text "y".toList]
    let r := applyPatchesKeep noParse D [.move [0, 0] [5, 0] none]
    r.2 = some (.slotNotFound 5) ∧ String.ofList D.toBodyHtml = "<b>x</b>y" ∧
    String.ofList r.1.toBodyHtml = "y" := by
  decide +kernel

end Hotmeal
