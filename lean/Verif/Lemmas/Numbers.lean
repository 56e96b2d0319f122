import Verif.Lemmas.FanRun
import Verif.Props.Traffic

set_option autoImplicit false
set_option linter.unusedSectionVars false

/-!
# How large the numbers in patches get
-/

namespace Hotmeal

/-- Bounds for a shadow tree: apart from the super root a node `n` has at most `bd n` children; slots have larger
ids than the nodes of the old tree. -/
structure Shadow.Num (bd : Nat → Nat) (S : Shadow) : Prop where
  shape : S.Shape
  fan : ∀ n, n ≠ S.superRoot → (S.arena.children n).length ≤ bd n
  low : ∀ m, S.IsSlot m → S.superRoot < m

namespace Shadow.Num

variable {bd : Nat → Nat} {S S' : Shadow}

theorem mono {bd' : Nat → Nat} (h : S.Num bd) (hb : ∀ n, bd n ≤ bd' n) : S.Num bd' :=
  ⟨h.shape, fun n hn => Nat.le_trans (h.fan n hn) (hb n), h.low⟩

theorem repl (h : S.Num bd) {n p : Nat} (hp : p ≠ S.superRoot) (hr : Shadow.Repl S S' n p) : S'.Num bd := by
  refine ⟨hr.shape, ?_, ?_⟩
  · intro m hm
    rw [hr.super] at hm
    rw [hr.children]
    split
    · next e => subst e; unfold Arena.swapIn; rw [List.length_map]; exact h.fan m hp
    · exact h.fan m hm
  · intro m hm
    rw [hr.super]
    have hm' : S'.arena.parent m = some S'.superRoot := hm
    rw [hr.parent, hr.super] at hm'
    split at hm'
    · cases hm'
    · split at hm'
      · cases hm'; exact absurd rfl hp
      · exact h.low m hm'

theorem unslot (h : S.Num bd) {n p : Nat} (hr : Shadow.Unslot S S' n p) : S'.Num bd := by
  refine ⟨hr.shape, ?_, ?_⟩
  · intro m hm
    rw [hr.super] at hm
    rw [hr.children]
    split
    · next e => subst e; exact Nat.le_trans (List.length_filter_le _ _) (h.fan m hm)
    · exact h.fan m hm
  · intro m hm
    rw [hr.super]
    have hm' : S'.arena.parent m = some S'.superRoot := hm
    rw [hr.parent, hr.super] at hm'
    split at hm'
    · cases hm'
    · exact h.low m hm'

theorem placed (h : S.Num bd) {x p pos : Nat} {slot : Option Nat} (hps : p ≠ S.superRoot) (hpos : pos < bd p)
    (h1 : ∀ n, S.superRoot < n → 1 ≤ bd n) (hp : Shadow.Placed S S' x p pos slot) : S'.Num bd := by
  rcases hp with ⟨occ, hp, _⟩ | ⟨hp, _⟩
  · have hsl := h.shape.super_lt
    refine ⟨hp.shape, ?_, ?_⟩
    · intro m hm
      rw [hp.super] at hm
      rw [hp.children]
      split
      · next e => subst e; exact h1 _ hsl
      · split
        · next e => subst e; rw [List.length_set]; exact h.fan m hps
        · exact h.fan m hm
    · intro m hm
      rw [hp.super]
      have hm' : S'.arena.parent m = some S'.superRoot := hm
      rw [hp.parent, hp.super] at hm'
      split at hm'
      · omega
      · split at hm'
        · injection hm' with hm'; omega
        · split at hm'
          · cases hm'; exact absurd rfl hps
          · exact h.low m hm'
  · refine ⟨hp.shape, ?_, ?_⟩
    · intro m hm
      rw [hp.super] at hm
      rw [hp.children]
      split
      · next e =>
        subst e
        have := hp.le
        simp only [List.length_append, List.length_range', List.length_singleton]
        omega
      · exact h.fan m hm
    · intro m hm
      rw [hp.super]
      have hm' : S'.arena.parent m = some S'.superRoot := hm
      rw [hp.parent, hp.super] at hm'
      split at hm'
      · cases hm'; exact absurd rfl hps
      · split at hm'
        · cases hm'; exact absurd rfl hps
        · exact h.low m hm'

theorem newNode (h : S.Num bd) (t : TData) : Shadow.Num bd { S with arena := (S.arena.newNode t).1 } := by
  have hw := h.shape.wf
  refine ⟨⟨hw.newNode t, ?_, ?_, ?_⟩, ?_, ?_⟩
  · show S.superRoot < S.arena.next + 1
    have := h.shape.super_lt; omega
  · show (S.arena.newNode _).1.parent _ = none
    rw [hw.newNode_parent]; exact h.shape.super_none
  · show ((S.arena.newNode _).1.children _).length = _
    rw [hw.newNode_children]; exact h.shape.slots_len
  · intro m hm
    show ((S.arena.newNode _).1.children _).length ≤ _
    rw [hw.newNode_children]; exact h.fan m hm
  · intro m hm
    have hm' : (S.arena.newNode t).1.parent m = some S.superRoot := hm
    rw [hw.newNode_parent] at hm'
    exact h.low m hm'

/-- What taking a node out keeps. -/
structure Out (S S' : Shadow) (n : Nat) : Prop where
  super : S'.superRoot = S.superRoot
  le : S.arena.next ≤ S'.arena.next
  parent : ∀ m, m < S.arena.next → S'.arena.parent m = if m = n then none else S.arena.parent m

theorem detach (h : S.Num bd) {n : Nat} (hn : n < S.superRoot) (e : S.detachWithPlaceholder n = .ok S') :
    S'.Num bd ∧ Out S S' n := by
  have hlt := h.shape.super_lt
  cases hp : S.arena.parent n with
  | some p =>
    have hps : p ≠ S.superRoot := by
      rintro rfl; have := h.low n hp; omega
    obtain ⟨S1, e1, hr⟩ := Shadow.detachWithPlaceholder_repl h.shape hp hps
    rw [e] at e1; cases e1
    refine ⟨h.repl hps hr, hr.super, by have := hr.next; omega, fun m hm => ?_⟩
    rw [hr.parent]
    split
    · rfl
    · rw [if_neg (by omega)]
  | none =>
    have hw := h.shape.wf
    have e1 : (S.arena.newNode placeholder).1.parent n = none := by rw [hw.newNode_parent]; exact hp
    have e2 : (S.arena.newNode placeholder).1.parent S.arena.next = none := by
      simp [Arena.newNode]
    have e3 : (S.arena.newNode placeholder).1.detach S.arena.next = (S.arena.newNode placeholder).1 := by
      unfold Arena.detach; rw [e2]
    have e4 : (S.arena.newNode placeholder).1.insertBefore n S.arena.next = .ok (S.arena.newNode placeholder).1 := by
      unfold Arena.insertBefore
      rw [if_neg (by omega)]
      simp only [e3, e1]
    have e5 : (S.arena.newNode placeholder).1.detach n = (S.arena.newNode placeholder).1 := by
      unfold Arena.detach; rw [e1]
    unfold detachWithPlaceholder at e
    simp only [Arena.newNode_snd, e4, bind, Except.bind, e5] at e
    cases e
    refine ⟨h.newNode _, rfl, Nat.le_succ _, fun m hm => ?_⟩
    show (S.arena.newNode _).1.parent m = _
    rw [hw.newNode_parent]
    split
    · next e => rw [e]; exact hp
    · rfl

theorem moveDetach (h : S.Num bd) {n p : Nat} (hn : n < S.superRoot) (ha : ¬ S.isAncestor n p = true)
    (e : S.moveDetach n p = .ok S') : S'.Num bd ∧ Out S S' n := by
  unfold Shadow.moveDetach at e
  rw [if_neg ha] at e
  simp only at e
  have key : ∀ b : Bool, (if (!b) = true then S.detachWithPlaceholder n
      else Except.ok { S with arena := S.arena.detach n }) = Except.ok S' → S'.Num bd ∧ Out S S' n := by
    intro b e
    cases b with
    | false => exact h.detach hn e
    | true =>
      simp only [Bool.not_true, Bool.false_eq_true, if_false] at e
      cases e
      cases hp : S.arena.parent n with
      | none =>
        have e5 : S.arena.detach n = S.arena := by unfold Arena.detach; rw [hp]
        rw [e5]
        refine ⟨h, rfl, Nat.le_refl _, fun m hm => ?_⟩
        split
        · next e => rw [e]; exact hp
        · rfl
      | some q =>
        have hr := Shadow.detach_unslot h.shape hp (by rintro rfl; have := h.low n hp; omega)
        exact ⟨h.unslot hr, rfl, Nat.le_of_eq hr.next.symm, fun m _ => hr.parent m⟩
  exact key _ e

/-- A successful move of a node that is not above its target. -/
theorem moveTo (h : S.Num bd) {n p pos : Nat} {slot : Option Nat} (hn : n < S.superRoot) (hp : p < S.arena.next)
    (hps : p ≠ S.superRoot) (hpos : pos < bd p) (h1 : ∀ n, S.superRoot < n → 1 ≤ bd n) (ha : ¬ S.isAncestor n p = true)
    (e : S.moveToPosition n p pos = .ok (S', slot)) :
    S'.Num bd ∧ S'.superRoot = S.superRoot ∧ S.arena.next ≤ S'.arena.next := by
  have hlt := h.shape.super_lt
  have e0 := e
  unfold moveToPosition at e
  obtain ⟨S1, e1, e⟩ := res_bind e
  have hone := h1
  obtain ⟨h1, ho⟩ := h.moveDetach hn ha e1
  have hpn : S1.arena.parent n = none := by rw [ho.parent n (by omega), if_pos rfl]
  by_cases hnp : n = p
  · exfalso
    subst hnp
    simp only at e
    split at e
    · next occ ho' =>
      have hocc : S1.arena.parent occ = some n := (h1.shape.wf.mem_iff _ _).1 (List.mem_of_getElem? ho')
      have hne : occ ≠ n := by rintro rfl; rw [hpn] at hocc; cases hocc
      rw [if_pos hne] at e
      obtain ⟨A, e2, e⟩ := res_bind e
      unfold Arena.insertBefore at e2
      rw [if_neg hne] at e2
      have e5 : S1.arena.detach n = S1.arena := by unfold Arena.detach; rw [hpn]
      simp only [e5, hocc, if_true] at e2
      cases e2
    · obtain ⟨A, e2, e⟩ := res_bind e
      unfold Arena.append at e2
      rw [if_pos (by cases (fillGaps S1.arena n (pos - (S1.arena.children n).length)).next <;> simp [Arena.isAncestorOrSelf])] at e2
      cases e2
  · have hna : ¬ S.arena.Anc n p := fun hx => ha ((Shadow.isAncestor_iff h.shape.wf).2 ⟨hx, hnp⟩)
    have hna1 : ¬ S1.arena.Anc n p := fun hx =>
      hna (Inv.anc_of_detached h.shape.wf (S1 := S1) ho.parent hx hp)
    obtain ⟨S2, slot2, e2, hpl⟩ := Shadow.moveToPosition_placed (pos := pos) h1.shape e1
      (Nat.lt_of_lt_of_le hp ho.le) (Nat.lt_of_lt_of_le (by omega) ho.le) hpn hna1 (by rw [ho.super]; exact hps)
      (by rw [ho.super]; omega)
    rw [e0] at e2; cases e2
    have hle := ho.le
    refine ⟨h1.placed (by rw [ho.super]; exact hps) hpos (by rw [ho.super]; exact hone) hpl, ?_, ?_⟩
    · rcases hpl with ⟨_, hpl, _⟩ | ⟨hpl, _⟩ <;> rw [hpl.super, ho.super]
    · rcases hpl with ⟨_, hpl, _⟩ | ⟨hpl, _⟩ <;> (have := hpl.next; omega)

/-- Numbers in a path. -/
theorem pathLoop (h : S.Num bd) {N : Nat} (hK : ∀ n, bd n ≤ N) (hs : S.nextSlot ≤ N) (h0 : 0 < N) :
    ∀ (k n : Nat) (acc : Path), (∀ i ∈ acc, i < N) → ∀ i ∈ S.pathLoop k n acc, i < N := by
  have hpos : ∀ (l : List Nat) (x : Nat), l.length ≤ N → Arena.posIn l x < N := by
    intro l x hl
    unfold Arena.posIn
    split
    · next hm => exact Nat.lt_of_lt_of_le (List.idxOf_lt_length_of_mem hm) hl
    · exact h0
  intro k
  induction k with
  | zero => intro n acc ha; exact ha
  | succ k ih =>
    intro n acc ha
    simp only [Shadow.pathLoop]
    split
    · exact ha
    · next p hp =>
      split
      · intro i hi
        rcases List.mem_cons.1 hi with rfl | hi
        · exact hpos _ _ (by rw [h.shape.slots_len]; exact hs)
        · exact ha i hi
      · refine ih _ _ fun i hi => ?_
        rcases List.mem_cons.1 hi with rfl | hi
        · refine hpos _ _ ?_
          by_cases e : p = S.superRoot
          · rw [e, h.shape.slots_len]; exact hs
          · exact Nat.le_trans (h.fan p e) (hK p)
        · exact ha i hi

theorem path (h : S.Num bd) {N : Nat} (hK : ∀ n, bd n ≤ N) (hs : S.nextSlot ≤ N) (h0 : 0 < N) (n : Nat) :
    ∀ i ∈ S.computePath n, i < N :=
  h.pathLoop hK hs h0 _ _ _ (fun i hi => by cases hi)

theorem refWithPos (h : S.Num bd) {N : Nat} (hK : ∀ n, bd n ≤ N) (hs : S.nextSlot ≤ N) (p : Nat) {pos : Nat} (hpos : pos < N) :
    ∀ i ∈ S.refWithPos p pos, i < N := by
  intro i hi
  rcases List.mem_append.1 hi with hi | hi
  · exact h.path hK hs (by omega) p i hi
  · rw [List.mem_singleton.1 hi]; omega

end Shadow.Num

/-- Bounds for the state of a conversion. -/
structure Conv.Num (K : Nat) (C : Conv) : Prop where
  shadow : C.shadow.Num (fun _ => K)
  bts : ∀ b s, C.bToShadow b = some s → s < C.shadow.arena.next ∧ s ≠ C.shadow.superRoot

/-- All numbers in the paths of a patch are below `N`. -/
def Patch.Below (N : Nat) (P : Patch) : Prop := ∀ q ∈ P.paths, ∀ i ∈ q, i < N

theorem Conv.Num.parentOf {K : Nat} {C : Conv} (h : C.Num K) {pb sp : Nat} (e : C.parentOf pb = .ok sp) :
    sp < C.shadow.arena.next ∧ sp ≠ C.shadow.superRoot := by
  unfold Conv.parentOf at e
  split at e
  · next s hs => cases e; exact h.bts _ _ hs
  · unfold Shadow.slot0Content at e
    split at e
    · cases e
    · split at e
      · cases e
      · next s _ _ c hc =>
        cases e
        have hp := (h.shadow.shape.wf.mem_iff _ _).1 (List.mem_of_mem_head? (by rw [hc]; rfl))
        refine ⟨(h.shadow.shape.wf.lt_of_parent _ _ hp).1, ?_⟩
        rintro rfl
        rw [h.shadow.shape.super_none] at hp; cases hp

/-- The nodes of the old tree that an operation names. -/
def EditOp.OldBelow (n : Nat) : EditOp → Prop
  | .delete a => a < n
  | .move a _ _ _ => a < n
  | _ => True

theorem convertOp_num {B : Arena TData} {ins : List Nat} {K N : Nat} (hKN : K ≤ N) (h0 : 0 < N) {C C' : Conv}
    {op : EditOp} {ps : List Patch} (h : C.Num K) (ho : op.Placed K) (hb : op.OldBelow C.shadow.superRoot)
    (hf : ancestorFree B ins C [op] = true) (e : convertOp B ins C op = .ok (C', ps)) (hN : C'.shadow.nextSlot ≤ N) :
    C'.Num K ∧ C'.shadow.superRoot = C.shadow.superRoot ∧ ∀ P ∈ ps, P.Below N := by
  have hmono : C.shadow.nextSlot ≤ N := by
    obtain ⟨k, hk, _⟩ := convertOp_next e
    omega
  have one : ∀ {P : Patch} {q : Path}, P.paths = [q] → (∀ i ∈ q, i < N) → P.Below N := by
    intro P q hp hq q' hq' i hi
    rw [hp, List.mem_singleton] at hq'
    subst hq'
    exact hq i hi
  cases op with
  | updateProps a b ch =>
    cases e
    refine ⟨h, rfl, fun P hP => ?_⟩
    rw [List.mem_singleton.1 hP]
    exact one rfl (h.shadow.path (fun _ => hKN) hmono h0 a)
  | setText a b t =>
    cases e
    refine ⟨h, rfl, fun P hP => ?_⟩
    rw [List.mem_singleton.1 hP]
    exact one rfl (h.shadow.path (fun _ => hKN) hmono h0 a)
  | delete a =>
    simp only [convertOp] at e
    obtain ⟨S, h1, e⟩ := res_bind e
    cases e
    obtain ⟨hn, hout⟩ := h.shadow.detach hb h1
    refine ⟨⟨hn, fun b s hs => ?_⟩, hout.super, fun P hP => ?_⟩
    · obtain ⟨i1, i2⟩ := h.bts b s hs
      exact ⟨Nat.lt_of_lt_of_le i1 hout.le, by show s ≠ S.superRoot; rw [hout.super]; exact i2⟩
    · rw [List.mem_singleton.1 hP]
      exact one rfl (h.shadow.path (fun _ => hKN) hmono h0 a)
  | insert b pb pos kind =>
    simp only [convertOp] at e
    obtain ⟨sp, hsp, e⟩ := res_bind e
    obtain ⟨⟨S, slot⟩, h1, e⟩ := res_bind e
    cases e
    obtain ⟨i1, i2⟩ := h.parentOf hsp
    have hw := h.shadow.shape.wf
    have hsl := h.shadow.shape.super_lt
    have hn1 := h.shadow.newNode (⟨kind, (B.data b).props, (B.data b).text⟩ : TData)
    obtain ⟨S', slot', e', hpl⟩ := Shadow.insertAtPosition_placed hn1.shape (x := C.shadow.arena.next) (p := sp)
      (pos := pos)
      (by show sp < C.shadow.arena.next + 1; omega) (by show C.shadow.arena.next < C.shadow.arena.next + 1; omega)
      (by simp [Arena.newNode])
      (by
        show ¬ (C.shadow.arena.newNode _).1.Anc _ _
        rw [hw.anc_newNode]
        intro ha
        have := hw.anc_lt ha i1
        omega)
      i2
      (by show C.shadow.arena.next ≠ C.shadow.superRoot; omega)
    have e1 : Shadow.insertAtPosition { C.shadow with arena := (C.shadow.arena.newNode
        ⟨kind, (B.data b).props, (B.data b).text⟩).1 } sp pos C.shadow.arena.next = .ok (S, slot) := h1
    rw [e1] at e'; cases e'
    have hn2 := hn1.placed i2 ho (fun _ _ => Nat.lt_of_le_of_lt (Nat.zero_le _) ho) hpl
    have hsup : S.superRoot = C.shadow.superRoot := by
      rcases hpl with ⟨_, hpl, _⟩ | ⟨hpl, _⟩ <;> rw [hpl.super]
    have hle : C.shadow.arena.next + 1 ≤ S.arena.next := by
      rcases hpl with ⟨_, hpl, _⟩ | ⟨hpl, _⟩ <;> (have := hpl.next; simp only [Arena.newNode_next] at this; omega)
    refine ⟨⟨hn2, fun b' s hs => ?_⟩, hsup, fun P hP => ?_⟩
    · show s < S.arena.next ∧ s ≠ S.superRoot
      rw [hsup]
      have hs' : Arena.upd C.bToShadow b (some C.shadow.arena.next) b' = some s := hs
      simp only [Arena.upd_apply] at hs'
      split at hs'
      · cases hs'; omega
      · obtain ⟨j1, j2⟩ := h.bts b' s hs'
        exact ⟨by omega, j2⟩
    · rw [List.mem_singleton.1 hP]
      have := hn2.refWithPos (fun _ => hKN) hN sp (Nat.lt_of_lt_of_le ho hKN)
      cases kind <;> exact one rfl this
  | move a b pb pos =>
    simp only [ancestorFree, Bool.and_eq_true] at hf
    simp only [convertOp] at e
    obtain ⟨sp, hsp, e⟩ := res_bind e
    have hf := hf.1
    rw [hsp] at hf
    simp only [Bool.not_eq_true'] at hf
    rw [hf] at e
    simp only [Bool.false_eq_true, if_false] at e
    obtain ⟨⟨S, pre⟩, h1, e⟩ := res_bind e
    cases h1
    obtain ⟨⟨S', slot⟩, h2, e⟩ := res_bind e
    cases e
    obtain ⟨i1, i2⟩ := h.parentOf hsp
    obtain ⟨hn, hsup, hle⟩ := h.shadow.moveTo hb i1 i2 ho (fun _ _ => Nat.lt_of_le_of_lt (Nat.zero_le _) ho) (by rw [hf]; simp) h2
    have hsl := h.shadow.shape.super_lt
    have hb' : a < C.shadow.superRoot := hb
    refine ⟨⟨hn, fun b' s hs => ?_⟩, hsup, fun P hP => ?_⟩
    · show s < S'.arena.next ∧ s ≠ S'.superRoot
      rw [hsup]
      have hs' : Arena.upd C.bToShadow b (some a) b' = some s := hs
      simp only [Arena.upd_apply] at hs'
      split at hs'
      · cases hs'; omega
      · obtain ⟨j1, j2⟩ := h.bts b' s hs'
        exact ⟨by omega, j2⟩
    · rw [List.nil_append] at hP
      rw [List.mem_singleton.1 hP]
      intro q hq i hi
      rcases List.mem_cons.1 hq with rfl | hq
      · exact h.shadow.path (fun _ => hKN) hmono h0 a i hi
      · rw [List.mem_singleton.1 hq] at hi
        exact hn.refWithPos (fun _ => hKN) hN sp (Nat.lt_of_lt_of_le ho hKN) i hi

theorem convertLoop_num {B : Arena TData} {ins : List Nat} {K N : Nat} (hKN : K ≤ N) (h0 : 0 < N) :
    ∀ (ops : List EditOp) {C C' : Conv} {ps : List Patch}, C.Num K → (∀ op ∈ ops, op.Placed K) →
      (∀ op ∈ ops, op.OldBelow C.shadow.superRoot) → ancestorFree B ins C ops = true →
      convertLoop B ins C ops = .ok (C', ps) → C'.shadow.nextSlot ≤ N → ∀ P ∈ ps, P.Below N
  | [], _, _, _, _, _, _, _, e, _ => by cases e; intro P hP; cases hP
  | op :: ops, C, C', ps, h, ho, hb, hf, e, hN => by
    obtain ⟨⟨C1, qs⟩, e1, e⟩ := res_bind e
    obtain ⟨⟨C2, rs⟩, e2, e⟩ := res_bind e
    cases e
    have hN1 : C1.shadow.nextSlot ≤ N := by
      obtain ⟨k, hk, _⟩ := convertLoop_next e2
      omega
    simp only [ancestorFree, e1, Bool.and_eq_true] at hf
    have hf1 : ancestorFree B ins C [op] = true := by
      simp only [ancestorFree, e1, Bool.and_eq_true, and_true]
      exact hf.1
    obtain ⟨h1, hsup, hP1⟩ := convertOp_num hKN h0 h (ho op (by simp)) (hb op (by simp)) hf1 e1 hN1
    have hP2 := convertLoop_num hKN h0 ops h1 (fun o hm => ho o (by simp [hm]))
      (fun o hm => by rw [hsup]; exact hb o (by simp [hm])) hf.2 e2 hN
    intro P hP
    rcases List.mem_append.1 hP with hP | hP
    · exact hP1 P hP
    · exact hP2 P hP

end Hotmeal
