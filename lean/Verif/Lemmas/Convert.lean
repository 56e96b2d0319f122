import Verif.Lemmas.ShadowOps
import Verif.Lemmas.Trace
import Verif.Lemmas.Traverse
import Verif.Lemmas.Step
import Verif.Lemmas.Sealed

set_option autoImplicit false
set_option linter.unusedSectionVars false

/-!
# The conversion of edit operations always succeeds and never takes the root away

Unlike `Verif.Lemmas.Loop` this makes no assumption about the script: nodes may be moved below
themselves, matched nodes may disagree on being opaque, hashes may collide.
-/

namespace Hotmeal

theorem Arena.WF.post_desc_first {α : Type} {A : Arena α} (h : A.WF) (n : Nat) {l1 l2 : List Nat} {m x : Nat}
    (e : A.post n = l1 ++ m :: l2) (ha : A.Anc m x) (hne : m ≠ x) : x ∈ l1 := by
  have key : ∀ {x : Nat}, A.Anc m x → m ≠ x → x ∈ l1 := by
    intro x ha
    induction ha with
    | refl => intro hne; exact absurd rfl hne
    | @step x p hp _ ih =>
      intro _
      by_cases hm : m = p
      · subst hm; exact h.post_children_first n l1 m l2 x e hp
      · obtain ⟨k1, k2, ek⟩ := List.append_of_mem (ih hm)
        have := h.post_children_first n k1 p (k2 ++ m :: l2) x (by rw [e, ek]; simp) hp
        rw [ek]; simp [this]
  exact key ha hne

/-- What the conversion keeps up: `Mv` are the nodes that have been moved, `Dl` those that have been
deleted. -/
structure ConvOk (A : Arena TData) (M : Matching) (S : Shadow) (bts : Nat → Option Nat)
    (Mv Dl : Nat → Prop) : Prop where
  shape : S.Shape
  super : S.superRoot = A.next
  gt : A.next + 2 ≤ S.arena.next
  slot1 : 1 ≤ S.nextSlot
  slot0 : (S.arena.children A.next).head? = some (A.next + 1)
  only0 : S.arena.children (A.next + 1) = [0]
  rooted : ∀ n, n < S.arena.next → n ≠ A.next → ¬ Dl n → ∃ p, S.arena.parent n = some p
  orig : ∀ x, x < A.next → ¬ S.IsSlot x
  bts : ∀ b s, bts b = some s → s < S.arena.next ∧ s ≠ A.next ∧ ¬ S.IsSlot s ∧
    (s < A.next → (s, b) ∈ M.pairs)
  above : ∀ x, x < A.next → ¬ Mv x → ∀ p, S.arena.parent x = some p →
    S.IsSlot p ∨ (A.Anc p x ∧ p ≠ x)

namespace ConvOk

variable {A : Arena TData} {M : Matching} {S S' : Shadow} {bts : Nat → Option Nat}
  {Mv Mv' Dl Dl' : Nat → Prop}

theorem isSlot0 (h : ConvOk A M S bts Mv Dl) : S.IsSlot (A.next + 1) := by
  have hm : A.next + 1 ∈ S.arena.children A.next := List.mem_of_mem_head? (by rw [h.slot0]; rfl)
  show S.arena.parent _ = some S.superRoot
  rw [h.super]; exact (h.shape.wf.mem_iff _ _).1 hm

theorem parent0 (h : ConvOk A M S bts Mv Dl) : S.arena.parent 0 = some (A.next + 1) :=
  (h.shape.wf.mem_iff _ _).1 (by rw [h.only0]; simp)

theorem not_slot0 (h : ConvOk A M S bts Mv Dl) {x : Nat} (hx : x ≠ 0) :
    S.arena.parent x ≠ some (A.next + 1) := by
  intro e
  have := (h.shape.wf.mem_iff _ _).2 e
  rw [h.only0] at this
  exact hx (by simpa using this)

/-- What a change of links has to satisfy to keep the invariant. -/
theorem step (h : ConvOk A M S bts Mv Dl) (hsh : S'.Shape) (hsup : S'.superRoot = S.superRoot)
    (hle : S.arena.next ≤ S'.arena.next) (hslot : S.nextSlot ≤ S'.nextSlot)
    (h0 : (S'.arena.children A.next).head? = (S.arena.children A.next).head?)
    (h1 : S'.arena.children (A.next + 1) = S.arena.children (A.next + 1))
    (hpar : ∀ m, m < S.arena.next → S'.arena.parent m = S.arena.parent m ∨
      (¬ S.IsSlot m ∧ ((∃ q, S'.arena.parent m = some q ∧ q ≠ A.next ∧
        (m < A.next → ¬ Mv' m → S'.IsSlot q ∨ (A.Anc q m ∧ q ≠ m))) ∨
        (S'.arena.parent m = none ∧ Dl' m))))
    (hfresh : ∀ m, S.arena.next ≤ m → m < S'.arena.next → ∃ p, S'.arena.parent m = some p)
    (hMv : ∀ x, Mv x → Mv' x) (hDl : ∀ x, Dl x → Dl' x) : ConvOk A M S' bts Mv' Dl' := by
  have hslotback : ∀ m, m < S.arena.next → S'.IsSlot m → S.IsSlot m := by
    intro m hm hs
    rcases hpar m hm with e | ⟨_, ⟨q, e, hq, _⟩ | ⟨e, _⟩⟩
    · show S.arena.parent m = _
      rw [← e, ← hsup]; exact hs
    · have hs' : S'.arena.parent m = some S'.superRoot := hs
      rw [e, hsup, h.super] at hs'; cases hs'; exact absurd rfl hq
    · have hs' : S'.arena.parent m = some S'.superRoot := hs
      rw [e] at hs'; cases hs'
  have hslotkeep : ∀ m, S.IsSlot m → S'.IsSlot m := by
    intro m hs
    have hm := (h.shape.wf.lt_of_parent _ _ hs).1
    rcases hpar m hm with e | ⟨hn, _⟩
    · show S'.arena.parent m = _
      rw [e, hsup]; exact hs
    · exact absurd hs hn
  refine ⟨hsh, hsup.trans h.super, Nat.le_trans h.gt hle, Nat.le_trans h.slot1 hslot, h0.trans h.slot0,
    h1.trans h.only0, ?_, ?_, ?_, ?_⟩
  · intro n hn hne hd
    by_cases hlt : n < S.arena.next
    · rcases hpar n hlt with e | ⟨_, ⟨q, e, _⟩ | ⟨_, e⟩⟩
      · rw [e]; exact h.rooted n hlt hne fun hx => hd (hDl _ hx)
      · exact ⟨q, e⟩
      · exact absurd e hd
    · exact hfresh n (by omega) hn
  · intro x hx hs
    exact h.orig x hx (hslotback x (by have := h.gt; omega) hs)
  · intro b s hb
    obtain ⟨b1, b2, b3, b4⟩ := h.bts b s hb
    exact ⟨by omega, b2, fun hs => b3 (hslotback s b1 hs), b4⟩
  · intro x hx hmv p hp
    have hxlt : x < S.arena.next := by have := h.gt; omega
    rcases hpar x hxlt with e | ⟨_, ⟨q, e, _, hq⟩ | ⟨e, _⟩⟩
    · rw [e] at hp
      rcases h.above x hx (fun hx => hmv (hMv _ hx)) p hp with h1 | h1
      · exact .inl (hslotkeep p h1)
      · exact .inr h1
    · rw [e] at hp; cases hp; exact hq hx hmv
    · rw [e] at hp; cases hp

/-! ### Paths -/

theorem pathLoop_length (S : Shadow) (k : Nat) : ∀ n acc, acc.length ≤ (S.pathLoop k n acc).length := by
  induction k with
  | zero => intro n acc; exact Nat.le_refl _
  | succ k ih =>
    intro n acc
    simp only [Shadow.pathLoop]
    split
    · exact Nat.le_refl _
    · split
      · simp
      · exact Nat.le_trans (by simp) (ih _ _)

theorem pathLoop_length' (S : Shadow) {k n p : Nat} {acc : Path} (hp : S.arena.parent n = some p)
    (hk : 0 < k) : acc.length < (S.pathLoop k n acc).length := by
  obtain ⟨k, rfl⟩ : ∃ j, k = j + 1 := ⟨k - 1, by omega⟩
  simp only [Shadow.pathLoop, hp]
  split
  · simp
  · exact Nat.lt_of_lt_of_le (by simp) (pathLoop_length S k _ _)

/-- The path of a node below a node that is not a slot. -/
theorem path_length {S : Shadow} (hw : S.arena.WF) {x p q : Nat} (hp : S.arena.parent x = some p)
    (hs : ¬ S.IsSlot p) (hq : S.arena.parent p = some q) : 2 ≤ (S.computePath x).length := by
  unfold Shadow.computePath
  have h1 := hw.lt_of_parent _ _ hp
  have h2 := hw.self_parent_ne hp
  obtain ⟨k, hk⟩ : ∃ k, S.arena.next = k + 2 := ⟨S.arena.next - 2, by omega⟩
  rw [hk]
  have e2 : S.pathLoop (k + 2) x [] = S.pathLoop (k + 1) p [Arena.posIn (S.arena.children p) x] := by
    conv => lhs; unfold Shadow.pathLoop
    simp only [hp]
    rw [if_neg hs]
  rw [e2]
  exact pathLoop_length' S (acc := [Arena.posIn (S.arena.children p) x]) hq (Nat.succ_pos k)

/-- A node that hangs below another node, or in a slot other than slot 0, is not addressed by `[0]`. -/
theorem path_ne (h : ConvOk A M S bts Mv Dl) {x p : Nat} (hx : x ≠ 0) (hp : S.arena.parent x = some p)
    (hq : S.IsSlot p ∨ ∃ q, S.arena.parent p = some q) : S.computePath x ≠ [0] := by
  have hgt := h.gt
  unfold Shadow.computePath
  obtain ⟨k, hk⟩ : ∃ k, S.arena.next = k + 2 := ⟨S.arena.next - 2, by omega⟩
  rw [hk]
  by_cases hs : S.IsSlot p
  · have e : S.pathLoop (k + 2) x [] = [Arena.posIn (S.arena.children S.superRoot) p] := by
      simp only [Shadow.pathLoop, hp]
      rw [if_pos hs]
    rw [e, h.super]
    have hs' : S.arena.parent p = some S.superRoot := hs
    have hm : p ∈ S.arena.children A.next := (h.shape.wf.mem_iff _ _).2 (by rw [hs', h.super])
    have hne : p ≠ A.next + 1 := by rintro rfl; exact h.not_slot0 hx hp
    have h0 := h.slot0
    cases hl : S.arena.children A.next with
    | nil => rw [hl] at hm; cases hm
    | cons y ys =>
      rw [hl] at h0 hm
      simp only [List.head?_cons, Option.some.injEq] at h0
      subst h0
      intro e
      simp only [Arena.posIn, if_pos hm, List.cons.injEq, and_true] at e
      rw [List.idxOf_cons, cond_eq_ite, if_neg (by simpa using Ne.symm hne)] at e
      cases e
  · obtain ⟨q, hq⟩ := hq.resolve_left hs
    intro e
    have := path_length h.shape.wf hp hs hq
    unfold Shadow.computePath at this
    rw [hk, e] at this
    simp at this

/-! ### Placing nodes -/

/-- A parent-to-be of an inserted or moved node. -/
structure Target (A : Arena TData) (S : Shadow) (sp : Nat) : Prop where
  lt : sp < S.arena.next
  ne : sp ≠ A.next
  slot : ¬ S.IsSlot sp

theorem parentOf (h : ConvOk A M S bts Mv Dl) (hpos : 0 < A.next) (pb : Nat) :
    ∃ sp, Conv.parentOf ⟨S, bts⟩ pb = .ok sp ∧ Target A S sp ∧
      (sp = 0 ∨ (sp < A.next → (sp, pb) ∈ M.pairs)) := by
  have hgt := h.gt
  unfold Conv.parentOf
  cases e : bts pb with
  | some s =>
    obtain ⟨h1, h2, h3, h4⟩ := h.bts pb s e
    exact ⟨s, by simp only [e], ⟨h1, h2, h3⟩, .inr h4⟩
  | none =>
    refine ⟨0, ?_, ⟨by omega, by omega, h.orig 0 hpos⟩, .inl rfl⟩
    have h0 := h.slot0
    rw [List.head?_eq_getElem?] at h0
    simp only [e, Shadow.slot0Content, Shadow.getSlot, h.super, h0, h.only0]
    rfl

theorem _root_.Hotmeal.Shadow.Placed.spares {S S' : Shadow} {x p pos : Nat} {slot : Option Nat}
    (h : Shadow.Placed S S' x p pos slot) (h1 : 1 ≤ S.nextSlot) : slot ≠ some 0 := by
  rcases h with ⟨_, _, rfl⟩ | ⟨_, rfl⟩
  · intro e; simp only [Option.some.injEq] at e; omega
  · simp

/-- Insertion of a new node. -/
theorem insert (h : ConvOk A M S bts Mv (fun _ => False)) (hpos : 0 < A.next) (B : Arena TData) (ins : List Nat)
    (b pb pos : Nat) (kind : HKind) :
    ∃ S' bts' P, convertOp B ins ⟨S, bts⟩ (.insert b pb pos kind) = .ok (⟨S', bts'⟩, [P]) ∧
      P.SparesRoot ∧ ConvOk A M S' bts' Mv (fun _ => False) := by
  obtain ⟨sp, hsp, ht, -⟩ := h.parentOf hpos pb
  have hw := h.shape.wf
  have hgt := h.gt
  have hw1 := hw.newNode (⟨kind, (B.data b).props, (B.data b).text⟩ : TData)
  have hS1 : Shadow.Shape { S with arena := (S.arena.newNode ⟨kind, (B.data b).props, (B.data b).text⟩).1 } := by
    refine ⟨hw1, ?_, ?_, ?_⟩
    · show S.superRoot < S.arena.next + 1
      have := h.shape.super_lt; omega
    · show (S.arena.newNode _).1.parent _ = none
      rw [hw.newNode_parent]; exact h.shape.super_none
    · show ((S.arena.newNode _).1.children _).length = _
      rw [hw.newNode_children]; exact h.shape.slots_len
  obtain ⟨S', slot, e, hpl⟩ := Shadow.insertAtPosition_placed hS1 (x := S.arena.next) (p := sp) (pos := pos)
    (by show sp < S.arena.next + 1; have := ht.lt; omega) (by show S.arena.next < S.arena.next + 1; omega)
    (by simp [Arena.newNode])
    (by
      show ¬ (S.arena.newNode _).1.Anc _ _
      rw [hw.anc_newNode]
      intro ha
      have := hw.anc_lt ha ht.lt
      omega)
    (by show sp ≠ S.superRoot; rw [h.super]; exact ht.ne)
    (by show S.arena.next ≠ S.superRoot; rw [h.super]; omega)
  have hlive : ConvOk A M S' bts Mv (fun _ => False) := by
    rcases hpl with ⟨occ, hp, rfl⟩ | ⟨hp, rfl⟩
    · have hoccp : S.arena.parent occ = some sp := by
        have := List.mem_of_getElem? hp.at_
        have : occ ∈ S.arena.children sp := by rw [← hw.newNode_children]; exact this
        exact (hw.mem_iff _ _).1 this
      have hocclt := (hw.lt_of_parent _ _ hoccp).1
      have hpar : ∀ m, S'.arena.parent m = if m = S.arena.next + 1 then some A.next
          else if m = occ then some (S.arena.next + 1) else if m = S.arena.next then some sp
          else S.arena.parent m := by
        intro m
        rw [hp.parent]
        simp only [Arena.newNode_next, hw.newNode_parent, h.super]
      have hnext : S'.arena.next = S.arena.next + 2 := hp.next
      refine h.step hp.shape hp.super (by omega) (by have := hp.slot; simp only at this; omega) ?_ ?_ ?_ ?_
        (fun _ hx => hx) (fun _ hx => hx)
      · rw [hp.children]
        simp only [Arena.newNode_next, hw.newNode_children, h.super]
        rw [if_neg (by omega), if_pos trivial]
        cases hl : S.arena.children A.next with
        | nil => have := h.slot0; rw [hl] at this; cases this
        | cons y ys => rfl
      · rw [hp.children]
        simp only [Arena.newNode_next, hw.newNode_children, h.super]
        rw [if_neg (by omega), if_neg (by omega), if_neg ?_]
        rintro rfl; exact ht.slot h.isSlot0
      · intro m hm
        rw [hpar, if_neg (by omega)]
        by_cases h1 : m = occ
        · subst h1
          refine .inr ⟨?_, .inl ⟨S.arena.next + 1, by rw [if_pos rfl], by omega, fun _ _ => .inl ?_⟩⟩
          · intro hs
            have hs' : S.arena.parent m = some S.superRoot := hs
            rw [hoccp, h.super] at hs'; cases hs'; exact ht.ne rfl
          · show S'.arena.parent _ = some S'.superRoot
            rw [hpar, if_pos rfl, hp.super]; simp only [h.super]
        · exact .inl (by rw [if_neg h1, if_neg (by omega)])
      · intro m h1 h2
        rw [hpar]
        by_cases e1 : m = S.arena.next + 1
        · exact ⟨_, by rw [if_pos e1]⟩
        · have e2 : m = S.arena.next := by omega
          exact ⟨sp, by rw [if_neg e1, if_neg (by omega), if_pos e2]⟩
    · have hpar : ∀ m, S'.arena.parent m = if m = S.arena.next then some sp
          else if S.arena.next + 1 ≤ m ∧ m < S'.arena.next then some sp else S.arena.parent m := by
        intro m
        rw [hp.parent]
        simp only [Arena.newNode_next, hw.newNode_parent]
      have hnext := hp.next
      simp only [Arena.newNode_next, hw.newNode_children] at hnext
      refine h.step hp.shape hp.super (by omega) (by have := hp.slot; simp only at this; omega) ?_ ?_ ?_ ?_
        (fun _ hx => hx) (fun _ hx => hx)
      · rw [hp.children]
        simp only [hw.newNode_children]
        rw [if_neg (Ne.symm ht.ne)]
      · rw [hp.children]
        simp only [hw.newNode_children]
        rw [if_neg (by rintro rfl; exact ht.slot h.isSlot0)]
      · intro m hm
        exact .inl (by rw [hpar, if_neg (by omega), if_neg (by omega)])
      · intro m h1 h2
        rw [hpar]
        by_cases e1 : m = S.arena.next
        · exact ⟨_, by rw [if_pos e1]⟩
        · exact ⟨_, by rw [if_neg e1, if_pos ⟨by omega, h2⟩]⟩
  have hn' : S.arena.next < S'.arena.next ∧ ¬ S'.IsSlot S.arena.next := by
    rcases hpl with ⟨occ, hp, _⟩ | ⟨hp, _⟩
    · have hoccp : S.arena.parent occ = some sp := by
        have := List.mem_of_getElem? hp.at_
        have : occ ∈ S.arena.children sp := by rw [← hw.newNode_children]; exact this
        exact (hw.mem_iff _ _).1 this
      have hocclt := (hw.lt_of_parent _ _ hoccp).1
      have hnext : S'.arena.next = S.arena.next + 2 := hp.next
      refine ⟨by omega, fun hs => ?_⟩
      have hs' : S'.arena.parent _ = some S'.superRoot := hs
      rw [hp.parent, hp.super] at hs'
      simp only [Arena.newNode_next] at hs'
      rw [if_neg (by omega), if_neg (by omega), if_pos trivial, h.super] at hs'
      cases hs'; exact ht.ne rfl
    · have hnext := hp.next
      simp only [Arena.newNode_next] at hnext
      refine ⟨by omega, fun hs => ?_⟩
      have hs' : S'.arena.parent _ = some S'.superRoot := hs
      rw [hp.parent, hp.super, if_pos rfl] at hs'
      simp only [h.super] at hs'
      cases hs'; exact ht.ne rfl
  have hsl := hpl.spares (by exact h.slot1)
  suffices hc : ∃ P, convertOp B ins ⟨S, bts⟩ (.insert b pb pos kind) =
      .ok (⟨S', Arena.upd bts b (some S.arena.next)⟩, [P]) ∧ P.SparesRoot by
    obtain ⟨P, hc, hP⟩ := hc
    refine ⟨S', Arena.upd bts b (some S.arena.next), P, hc, hP, ?_⟩
    refine { hlive with bts := ?_ }
    intro b' s hb
    rw [Arena.upd_apply] at hb
    split at hb
    · cases hb
      exact ⟨hn'.1, by omega, hn'.2, fun hlt => by omega⟩
    · exact hlive.bts b' s hb
  unfold convertOp
  simp only [hsp, bind, Except.bind, Arena.newNode_snd, e]
  cases kind <;> exact ⟨_, rfl, hsl⟩

end ConvOk

/-! ### The ancestor case of Move -/

/-- The nodes in `cs` were moved from `a` to `p`; placeholders took their place. -/
structure Rehung (S S' : Shadow) (a p : Nat) (cs : List Nat) : Prop where
  shape : S'.Shape
  super : S'.superRoot = S.superRoot
  slot : S'.nextSlot = S.nextSlot
  le : S.arena.next ≤ S'.arena.next
  old : ∀ m, m < S.arena.next → S'.arena.parent m = if m ∈ cs then some p else S.arena.parent m
  fresh : ∀ m, S.arena.next ≤ m → m < S'.arena.next → S'.arena.parent m = some a
  children : ∀ m, m ≠ a → m ≠ p → S'.arena.children m = S.arena.children m

theorem reparentChild_ok {S : Shadow} (hsh : S.Shape) {c a p : Nat} (hc : S.arena.parent c = some a)
    (ha : S.arena.parent a = some p) (hps : p ≠ S.superRoot) (pos i : Nat) :
    ∃ S' to, reparentChild p pos S i c = .ok (S', .move (S.computePath c) to none) ∧
      Rehung S S' a p [c] := by
  have hw := hsh.wf
  have hlc := hw.lt_of_parent _ _ hc
  have hla := hw.lt_of_parent _ _ ha
  have has : a ≠ S.superRoot := by
    rintro rfl; have := hsh.super_none; rw [this] at ha; cases ha
  obtain ⟨S1, e1, hr⟩ := Shadow.detachWithPlaceholder_repl hsh hc has
  have hca : c ≠ a := (hw.self_parent_ne hc).symm
  have hanc : ¬ S1.arena.Anc c p := by
    intro h1
    have h2 : S.arena.Anc c p := by
      refine Inv.anc_of_detached hw (S1 := S1) ?_ h1 hla.2
      intro m hm
      rw [hr.parent]
      by_cases h : m = c
      · rw [if_pos h, if_pos h]
      · rw [if_neg h, if_neg h, if_neg (by omega)]
    have h3 : S.arena.Anc a c := .step hc .refl
    have h4 : S.arena.Anc p a := .step ha .refl
    exact hca (hw.anc_antisymm (h2.trans h4) h3)
  have hcn : S1.arena.parent c = none := by rw [hr.parent, if_pos rfl]
  have hclt : c < S1.arena.next := by have := hr.next; omega
  have hplt : p < S1.arena.next := by have := hr.next; omega
  have hfin : ∀ A', A'.WF → A'.next = S1.arena.next →
      (∀ m, A'.parent m = if m = c then some p else S1.arena.parent m) →
      (∀ m, m ≠ p → A'.children m = S1.arena.children m) →
      Rehung S { S1 with arena := A' } a p [c] := by
    intro A' w' n' p' c'
    have hnext := hr.next
    refine ⟨⟨w', ?_, ?_, ?_⟩, hr.super, hr.slot, ?_, ?_, ?_, ?_⟩
    · show S1.superRoot < A'.next
      rw [n', hr.super]; have := hsh.super_lt; omega
    · show A'.parent S1.superRoot = none
      have hsc : S.superRoot ≠ c := by
        rintro e; have := hsh.super_none; rw [e, hc] at this; cases this
      rw [p', hr.super, if_neg hsc, hr.parent, if_neg hsc, if_neg (by have := hsh.super_lt; omega)]
      exact hsh.super_none
    · show (A'.children S1.superRoot).length = S1.nextSlot
      rw [c' _ (by rw [hr.super]; exact hps.symm), hr.shape.slots_len]
    · show S.arena.next ≤ A'.next
      omega
    · intro m hm
      show A'.parent m = _
      rw [p', hr.parent]
      by_cases h : m = c
      · simp [h]
      · rw [if_neg h, if_neg h, if_neg (by omega), if_neg (by simpa using h)]
    · intro m h1 h2
      have h2' : m < A'.next := h2
      have : m = S.arena.next := by omega
      show A'.parent m = _
      rw [p', if_neg (by omega), hr.parent, if_neg (by omega), if_pos this]
    · intro m h1 h2
      show A'.children m = _
      rw [c' m h2, hr.children, if_neg h1]
  unfold reparentChild
  simp only [e1, bind, Except.bind]
  cases hsib : (S1.arena.children p)[pos + 1 + i]? with
  | some sib =>
    obtain ⟨A', e2, w', n', p', c', -⟩ := hr.shape.wf.insert_at hsib hclt hcn hanc
    simp only [e2]
    exact ⟨_, _, rfl, hfin A' w' n' p' fun m hm => by rw [c', if_neg hm]⟩
  | none =>
    obtain ⟨A', e2, w', n', p', c', -⟩ := hr.shape.wf.append_at hplt hclt hcn hanc
    simp only [e2]
    exact ⟨_, _, rfl, hfin A' w' n' p' fun m hm => by rw [c', if_neg hm]⟩

theorem Rehung.cons {S S1 S2 : Shadow} {a p c : Nat} {cs : List Nat} (h1 : Rehung S S1 a p [c])
    (h2 : Rehung S1 S2 a p cs) (hcs : ∀ x ∈ cs, x < S.arena.next) : Rehung S S2 a p (c :: cs) := by
  refine ⟨h2.shape, h2.super.trans h1.super, h2.slot.trans h1.slot, Nat.le_trans h1.le h2.le, ?_, ?_, ?_⟩
  · intro m hm
    have hle := h1.le
    rw [h2.old m (by omega), h1.old m hm]
    by_cases e1 : m ∈ cs
    · rw [if_pos e1, if_pos (by simp [e1])]
    · rw [if_neg e1]
      by_cases e2 : m = c
      · rw [if_pos (by simp [e2]), if_pos (by simp [e2])]
      · rw [if_neg (by simp [e2]), if_neg (by simp [e1, e2])]
  · intro m hm hlt
    by_cases h : m < S1.arena.next
    · rw [h2.old m h, if_neg fun hx => by have := hcs m hx; omega]
      exact h1.fresh m hm h
    · exact h2.fresh m (by omega) hlt
  · intro m e1 e2
    rw [h2.children m e1 e2, h1.children m e1 e2]

theorem reparentLoop_ok {a p pos : Nat} {Q : Patch → Prop} : ∀ (l : List (Nat × Nat)) (S : Shadow) (out : List Patch),
    S.Shape → (l.map Prod.fst).Nodup → (∀ ci ∈ l, S.arena.parent ci.1 = some a) →
    S.arena.parent a = some p → p ≠ S.superRoot → (∀ P ∈ out, Q P) →
    (∀ (S' : Shadow) (c : Nat) (to : Path), S'.superRoot = S.superRoot → S'.Shape → S'.arena.parent c = some a →
      S'.arena.parent a = some p → Q (.move (S'.computePath c) to none)) →
    ∃ S' ps, l.foldlM (fun (x : Shadow × List Patch) (ci : Nat × Nat) => do
        let (S, patch) ← reparentChild p pos x.1 ci.2 ci.1
        (Except.ok (S, x.2 ++ [patch]) : Res (Shadow × List Patch))) (S, out) = .ok (S', ps) ∧
      (∀ P ∈ ps, Q P) ∧ Rehung S S' a p (l.map Prod.fst) := by
  intro l
  induction l with
  | nil =>
    intro S out hsh _ _ _ _ ho _
    exact ⟨S, out, rfl, ho, hsh, rfl, rfl, Nat.le_refl _, fun m _ => by simp, fun m _ _ => by omega, fun _ _ _ => rfl⟩
  | cons ci l ih =>
    intro S out hsh hnd hcs ha hps ho hQ
    obtain ⟨S1, to, e1, hr⟩ := reparentChild_ok hsh (hcs ci (by simp)) ha hps pos ci.2
    have hw := hsh.wf
    simp only [List.map_cons, List.nodup_cons] at hnd
    have hne : a ≠ ci.1 := hw.self_parent_ne (hcs ci (by simp))
    obtain ⟨S2, ps, e2, hps2, hr2⟩ := ih S1 (out ++ [.move (S.computePath ci.1) to none]) hr.shape hnd.2
      (by
        intro cj hj
        have hj' := hcs cj (by simp [hj])
        rw [hr.old _ (hw.lt_of_parent _ _ hj').1, if_neg ?_]
        · exact hj'
        · intro hx
          have hx : cj.1 = ci.1 := by simpa using hx
          exact hnd.1 (List.mem_map.2 ⟨cj, hj, hx⟩))
      (by rw [hr.old _ (hw.lt_of_parent _ _ ha).1, if_neg (by simpa using hne)]; exact ha)
      (by rw [hr.super]; exact hps)
      (by
        intro P hP
        rcases List.mem_append.1 hP with hP | hP
        · exact ho P hP
        · rw [List.mem_singleton.1 hP]
          exact hQ S ci.1 to rfl hsh (hcs ci (by simp)) ha)
      (fun S' c to' h1 => hQ S' c to' (h1.trans hr.super))
    refine ⟨S2, ps, ?_, hps2, ?_⟩
    · rw [List.foldlM_cons]
      simp only [e1, bind, Except.bind]
      exact e2
    · refine hr.cons hr2 ?_
      intro x hx
      obtain ⟨cj, hj, rfl⟩ := List.mem_map.1 hx
      exact (hw.lt_of_parent _ _ (hcs cj (by simp [hj]))).1

namespace ConvOk

variable {A : Arena TData} {M : Matching} {S S' : Shadow} {bts : Nat → Option Nat}
  {Mv Mv' Dl Dl' : Nat → Prop}

/-- The children of `a` are moved next to `a`. -/
theorem reparent (h : ConvOk A M S bts Mv (fun _ => False)) {a : Nat} (ha : a < A.next) (ha0 : a ≠ 0)
    (hmv : ¬ Mv a) : ∃ S' ps, reparentChildren S a = .ok (S', ps) ∧ (∀ P ∈ ps, P.SparesRoot) ∧
      ConvOk A M S' bts Mv (fun _ => False) ∧ S.arena.next ≤ S'.arena.next ∧
      (∀ m, m < S.arena.next → (S'.IsSlot m ↔ S.IsSlot m)) ∧
      ∀ m, m < S.arena.next → m ≠ a → ¬ S'.arena.Anc a m := by
  have hgt := h.gt
  have hw := h.shape.wf
  obtain ⟨p, hp⟩ := h.rooted a (by omega) (by omega) (fun hx => hx)
  have hps : p ≠ A.next := by
    rintro rfl; exact h.orig a ha (by show S.arena.parent a = _; rw [hp, h.super])
  have hp1 : p ≠ A.next + 1 := by rintro rfl; exact h.not_slot0 ha0 hp
  have hmap : ((S.arena.children a).zipIdx.reverse.map Prod.fst) = (S.arena.children a).reverse := by
    rw [List.map_reverse, List.zipIdx_map_fst]
  obtain ⟨S', ps, e, hQ, hr⟩ := reparentLoop_ok (a := a) (p := p)
    (pos := Arena.posIn (S.arena.children p) a) (Q := Patch.SparesRoot)
    (S.arena.children a).zipIdx.reverse S [] h.shape
    (by rw [hmap]; exact List.pairwise_reverse.2 ((hw.nodup a).imp fun hne => hne.symm))
    (by
      intro ci hci
      have : ci.1 ∈ (S.arena.children a).zipIdx.reverse.map Prod.fst := List.mem_map.2 ⟨ci, hci, rfl⟩
      rw [hmap, List.mem_reverse] at this
      exact (hw.mem_iff _ _).1 this)
    hp (by rw [h.super]; exact hps) (by simp)
    (by
      intro S' c to hsup hsh hc ha'
      refine ⟨fun e => ?_, by simp⟩
      have := path_length hsh.wf hc (fun hs => ?_) ha'
      · rw [e] at this; simp at this
      · have hs' : S'.arena.parent a = some S'.superRoot := hs
        rw [ha', hsup, h.super] at hs'; cases hs'; exact hps rfl)
  rw [hmap] at hr
  have hmem : ∀ m, m ∈ (S.arena.children a).reverse ↔ S.arena.parent m = some a := by
    intro m; rw [List.mem_reverse, hw.mem_iff]
  have hae : a ≠ A.next := by omega
  have hae1 : a ≠ A.next + 1 := by omega
  have hlive : ConvOk A M S' bts Mv (fun _ => False) := by
    refine h.step hr.shape hr.super hr.le (Nat.le_of_eq hr.slot.symm) ?_ ?_ ?_ ?_ (fun _ hx => hx) (fun _ hx => hx)
    · rw [hr.children _ hae.symm hps.symm]
    · rw [hr.children _ hae1.symm hp1.symm]
    · intro m hm
      rw [hr.old m hm]
      by_cases hc : m ∈ (S.arena.children a).reverse
      · rw [if_pos hc]
        have hma := (hmem m).1 hc
        refine .inr ⟨?_, .inl ⟨p, rfl, hps, fun hlt hnm => ?_⟩⟩
        · intro hs
          have hs' : S.arena.parent m = some S.superRoot := hs
          rw [hma, h.super] at hs'; cases hs'; omega
        · rcases h.above a ha hmv p hp with hs | ⟨h1, h2⟩
          · left
            show S'.arena.parent p = some S'.superRoot
            rw [hr.super, hr.old p (hw.lt_of_parent _ _ hp).2, if_neg ?_]
            · exact hs
            · intro hx
              have hs' : S.arena.parent p = some S.superRoot := hs
              rw [(hmem p).1 hx, h.super] at hs'
              cases hs'; omega
          · right
            rcases h.above m hlt hnm a hma with hs | ⟨h3, h4⟩
            · exact absurd hs (h.orig a ha)
            · refine ⟨h1.trans h3, ?_⟩
              rintro rfl
              have h5 : S.arena.Anc a p := .step hma .refl
              have h6 : S.arena.Anc p a := .step hp .refl
              exact h2 (hw.anc_antisymm h6 h5)
      · rw [if_neg hc]; exact .inl rfl
    · intro m h1 h2; exact ⟨a, hr.fresh m h1 h2⟩
  refine ⟨S', ps, ?_, hQ, hlive, hr.le, ?_, ?_⟩
  · unfold reparentChildren
    simp only [hp]
    exact e
  · intro m hm
    show S'.arena.parent m = some S'.superRoot ↔ S.arena.parent m = some S.superRoot
    rw [hr.super, hr.old m hm]
    by_cases hc : m ∈ (S.arena.children a).reverse
    · rw [if_pos hc, (hmem m).1 hc, h.super]
      constructor
      · intro e; cases e; exact absurd rfl hps
      · intro e; cases e; omega
    · rw [if_neg hc]
  · intro m hm hne hanc
    -- some child of `a` is above `m`; it is a placeholder and has no children
    have key : ∀ {m : Nat}, S'.arena.Anc a m → m ≠ a → S.arena.next ≤ m := by
      intro m hanc
      induction hanc with
      | refl => intro hne; exact absurd rfl hne
      | @step m q hq _ ih =>
        intro _
        by_cases hqa : q = a
        · subst hqa
          apply Classical.byContradiction
          intro hlt
          rw [hr.old m (by omega)] at hq
          by_cases hc : m ∈ (S.arena.children q).reverse
          · rw [if_pos hc] at hq; cases hq
            exact hw.self_parent_ne hp rfl
          · rw [if_neg hc] at hq
            exact hc ((hmem m).2 hq)
        · have hqn := ih hqa
          apply Classical.byContradiction
          intro hlt
          rw [hr.old m (by omega)] at hq
          by_cases hc : m ∈ (S.arena.children a).reverse
          · rw [if_pos hc] at hq; cases hq
            have := (hw.lt_of_parent _ _ hp).2; omega
          · rw [if_neg hc] at hq
            have := (hw.lt_of_parent _ _ hq).2; omega
    have := key hanc hne
    omega

/-- The final step of a Move: `a` is not above its target. -/
theorem moveTo (h : ConvOk A M S bts Mv (fun _ => False)) {a : Nat} (ha : a < A.next) (ha0 : a ≠ 0)
    {sp : Nat} (ht : Target A S sp) (hanc : ¬ S.arena.Anc a sp) (pos : Nat) :
    ∃ S' slot, S.moveToPosition a sp pos = .ok (S', slot) ∧ S.computePath a ≠ [0] ∧ slot ≠ some 0 ∧
      ConvOk A M S' bts (fun x => Mv x ∨ x = a) (fun _ => False) := by
  have hgt := h.gt
  have hw := h.shape.wf
  obtain ⟨q, hq⟩ := h.rooted a (by omega) (by omega) (fun hx => hx)
  have hqs : q ≠ A.next := by
    rintro rfl; exact h.orig a ha (by show S.arena.parent a = _; rw [hq, h.super])
  have hq1 : q ≠ A.next + 1 := by rintro rfl; exact h.not_slot0 ha0 hq
  have hqlt := (hw.lt_of_parent _ _ hq).2
  obtain ⟨S1, e1, hcase⟩ := Shadow.moveDetach_cases h.shape hq (by rw [h.super]; exact hqs) hanc
  -- the two ways of taking `a` out
  have hd : S1.Shape ∧ S1.superRoot = A.next ∧ S1.nextSlot = S.nextSlot ∧
      S.arena.next ≤ S1.arena.next ∧ S1.arena.parent a = none ∧
      (∀ m, m < S.arena.next → m ≠ a → S1.arena.parent m = S.arena.parent m) ∧
      (∀ m, S.arena.next ≤ m → m < S1.arena.next → S1.arena.parent m = some q) ∧
      (∀ m, m ≠ q → S1.arena.children m = S.arena.children m) := by
    rcases hcase with ⟨_, hr⟩ | ⟨_, hr⟩
    · refine ⟨hr.shape, hr.super.trans h.super, hr.slot, by have := hr.next; omega,
        by rw [hr.parent, if_pos rfl], ?_, ?_, ?_⟩
      · intro m hm hne; rw [hr.parent, if_neg hne, if_neg (by omega)]
      · intro m h1 h2
        have := hr.next
        rw [hr.parent, if_neg (by omega), if_pos (by omega)]
      · intro m hm; rw [hr.children, if_neg hm]
    · refine ⟨hr.shape, hr.super.trans h.super, hr.slot, by have := hr.next; omega,
        by rw [hr.parent, if_pos rfl], ?_, ?_, ?_⟩
      · intro m hm hne; rw [hr.parent, if_neg hne]
      · intro m h1 h2; have := hr.next; omega
      · intro m hm; rw [hr.children, if_neg hm]
  obtain ⟨hsh1, hsup1, hsl1, hle1, hpa1, hpar1, hfr1, hch1⟩ := hd
  have hanc1 : ¬ S1.arena.Anc a sp := by
    intro hx
    refine hanc (Inv.anc_of_detached hw (S1 := S1) ?_ hx ht.lt)
    intro m hm
    by_cases e : m = a
    · rw [if_pos e, e, hpa1]
    · rw [if_neg e, hpar1 m hm e]
  have htlt := ht.lt
  obtain ⟨S', slot, e2, hpl⟩ := Shadow.moveToPosition_placed (pos := pos) hsh1 e1 (by omega) (by omega) hpa1 hanc1
    (by rw [hsup1]; exact ht.ne) (by rw [hsup1]; omega)
  refine ⟨S', slot, e2, ?_, hpl.spares (by rw [hsl1]; exact h.slot1), ?_⟩
  · refine h.path_ne ha0 hq ?_
    by_cases hs : S.IsSlot q
    · exact .inl hs
    · exact .inr (h.rooted q hqlt hqs fun hx => hx)
  · have hsp1 : sp ≠ A.next + 1 := by rintro rfl; exact ht.slot h.isSlot0
    rcases hpl with ⟨occ, hp, rfl⟩ | ⟨hp, rfl⟩
    · have hoccp : S1.arena.parent occ = some sp :=
        (hsh1.wf.mem_iff _ _).1 (List.mem_of_getElem? hp.at_)
      have hocclt := (hsh1.wf.lt_of_parent _ _ hoccp).1
      have hoa : occ ≠ a := by rintro rfl; rw [hpa1] at hoccp; cases hoccp
      have hnext := hp.next
      refine h.step hp.shape (by rw [hp.super, hsup1, h.super]) (by omega)
        (by have := hp.slot; omega) ?_ ?_ ?_ ?_ (fun _ hx => .inl hx) (fun _ hx => hx)
      · rw [hp.children, if_neg (by omega), if_pos hsup1.symm, hsup1, hch1 _ hqs.symm]
        cases hl : S.arena.children A.next with
        | nil => have := h.slot0; rw [hl] at this; cases this
        | cons y ys => rfl
      · rw [hp.children, if_neg (by omega), if_neg (by omega), if_neg hsp1.symm, hch1 _ hq1.symm]
      · intro m hm
        rw [hp.parent, if_neg (by omega)]
        by_cases h1 : m = occ
        · subst h1
          rw [hpar1 m hm hoa] at hoccp
          refine .inr ⟨?_, .inl ⟨S1.arena.next, by rw [if_pos rfl], by omega, fun _ _ => .inl ?_⟩⟩
          · intro hs
            have hs' : S.arena.parent m = some S.superRoot := hs
            rw [hoccp, h.super] at hs'; cases hs'; exact ht.ne rfl
          · show S'.arena.parent _ = some S'.superRoot
            rw [hp.parent, if_pos rfl, hp.super]
        · by_cases h2 : m = a
          · subst h2
            refine .inr ⟨h.orig m ha, .inl ⟨sp, by rw [if_neg h1, if_pos rfl], ht.ne, fun _ hn => absurd (Or.inr rfl) hn⟩⟩
          · left; rw [if_neg h1, if_neg h2, hpar1 m hm h2]
      · intro m h1 h2
        rw [hp.parent]
        by_cases e1 : m = S1.arena.next
        · exact ⟨_, by rw [if_pos e1]⟩
        · rw [if_neg e1]
          by_cases e2 : m = occ
          · exact ⟨_, by rw [if_pos e2]⟩
          · rw [if_neg e2]
            by_cases e3 : m = a
            · exact ⟨_, by rw [if_pos e3]⟩
            · exact ⟨q, by rw [if_neg e3, hfr1 m h1 (by omega)]⟩
    · have hnext := hp.next
      refine h.step hp.shape (by rw [hp.super, hsup1, h.super]) (by omega)
        (by have := hp.slot; omega) ?_ ?_ ?_ ?_ (fun _ hx => .inl hx) (fun _ hx => hx)
      · rw [hp.children, if_neg (Ne.symm ht.ne), hch1 _ hqs.symm]
      · rw [hp.children, if_neg hsp1.symm, hch1 _ hq1.symm]
      · intro m hm
        rw [hp.parent]
        by_cases h2 : m = a
        · subst h2
          refine .inr ⟨h.orig m ha, .inl ⟨sp, by rw [if_pos rfl], ht.ne, fun _ hn => absurd (Or.inr rfl) hn⟩⟩
        · left; rw [if_neg h2, if_neg (by omega), hpar1 m hm h2]
      · intro m h1 h2
        rw [hp.parent]
        by_cases e3 : m = a
        · exact ⟨_, by rw [if_pos e3]⟩
        · rw [if_neg e3]
          by_cases e4 : S1.arena.next ≤ m ∧ m < S'.arena.next
          · exact ⟨_, by rw [if_pos e4]⟩
          · exact ⟨q, by rw [if_neg e4, hfr1 m h1 (by omega)]⟩

theorem nodup_fst_inj {l : List (Nat × Nat)} (hnd : (l.map Prod.fst).Nodup) {a b c : Nat}
    (h1 : (a, b) ∈ l) (h2 : (a, c) ∈ l) : b = c := by
  induction l with
  | nil => cases h1
  | cons p l ih =>
    simp only [List.map_cons, List.nodup_cons] at hnd
    rcases List.mem_cons.1 h1 with rfl | h1'
    · rcases List.mem_cons.1 h2 with e | h2'
      · cases e; rfl
      · exact absurd (List.mem_map.2 ⟨_, h2', rfl⟩) hnd.1
    · rcases List.mem_cons.1 h2 with rfl | h2'
      · exact absurd (List.mem_map.2 ⟨_, h1', rfl⟩) hnd.1
      · exact ih hnd.2 h1' h2'

/-- A Move. -/
theorem move (h : ConvOk A M S bts Mv (fun _ => False)) (hpos : 0 < A.next)
    (hnd : (M.pairs.map Prod.fst).Nodup) (B : Arena TData) (hB : B.WF) (ins : List Nat)
    {a b pb : Nat} (pos : Nat) (hab : (a, b) ∈ M.pairs) (ha : a < A.next) (ha0 : a ≠ 0)
    (hpb : B.parent b = some pb) (hmv : ¬ Mv a) :
    ∃ S' bts' ps, convertOp B ins ⟨S, bts⟩ (.move a b pb pos) = .ok (⟨S', bts'⟩, ps) ∧
      (∀ P ∈ ps, P.SparesRoot) ∧ ConvOk A M S' bts' (fun x => Mv x ∨ x = a) (fun _ => False) := by
  obtain ⟨sp, hsp, ht, hin⟩ := h.parentOf hpos pb
  have hw := h.shape.wf
  have hspa : sp ≠ a := by
    rintro rfl
    rcases hin with e | e
    · exact ha0 e
    · have h2 := e ha
      have := nodup_fst_inj hnd hab h2
      exact hB.self_parent_ne hpb this.symm
  -- after the optional reparenting
  obtain ⟨S1, pre, e1, hpre, hl1, ht1, hanc⟩ : ∃ S1 pre,
      (if S.isAncestor a sp then reparentChildren S a else .ok (S, []) : Res (Shadow × List Patch)) = .ok (S1, pre) ∧
      (∀ P ∈ pre, P.SparesRoot) ∧ ConvOk A M S1 bts Mv (fun _ => False) ∧ Target A S1 sp ∧
      ¬ S1.arena.Anc a sp := by
    by_cases hia : S.isAncestor a sp = true
    · rw [if_pos hia]
      obtain ⟨S1, ps, e, hQ, hl, hle, hsl, hno⟩ := h.reparent ha ha0 hmv
      have htlt := ht.lt
      exact ⟨S1, ps, e, hQ, hl, ⟨by omega, ht.ne, fun hs => ht.slot ((hsl sp ht.lt).1 hs)⟩, hno sp ht.lt hspa⟩
    · rw [if_neg hia]
      refine ⟨S, [], rfl, by simp, h, ht, fun hx => hia ?_⟩
      exact (Shadow.isAncestor_iff hw).2 ⟨hx, hspa.symm⟩
  obtain ⟨S2, slot, e2, hpath, hslot, hl2⟩ := hl1.moveTo ha ha0 ht1 hanc pos
  refine ⟨S2, Arena.upd bts b (some a),
    pre ++ [.move (S1.computePath a) (S2.refWithPos sp pos) slot], ?_, ?_, ?_⟩
  · unfold convertOp
    by_cases hia : S.isAncestor a sp = true
    · rw [if_pos hia] at e1
      simp only [hsp, bind, Except.bind, if_pos hia, e1, e2]
    · rw [if_neg hia] at e1
      cases e1
      simp only [hsp, bind, Except.bind, if_neg hia, e2]
  · intro P hP
    rcases List.mem_append.1 hP with hP | hP
    · exact hpre P hP
    · rw [List.mem_singleton.1 hP]
      exact ⟨hpath, hslot⟩
  · refine { hl2 with bts := ?_ }
    intro b' s hb
    rw [Arena.upd_apply] at hb
    split at hb
    · next e =>
      cases hb; subst e
      exact ⟨by have := hl2.gt; omega, by omega, hl2.orig _ ha, fun _ => hab⟩
    · exact hl2.bts b' s hb

/-- A Delete of an unmatched node whose ancestors in the old tree are still there. -/
theorem delete (h : ConvOk A M S bts Mv Dl) (B : Arena TData) (ins : List Nat) {a : Nat} (ha : a < A.next)
    (ha0 : a ≠ 0) (hmv : ¬ Mv a) (hd : ¬ Dl a) (hold : ∀ p, A.Anc p a → p ≠ a → ¬ Dl p)
    (haw : A.WF) :
    ∃ S' P, convertOp B ins ⟨S, bts⟩ (.delete a) = .ok (⟨S', bts⟩, [P]) ∧ P.SparesRoot ∧
      ConvOk A M S' bts Mv (fun x => Dl x ∨ x = a) := by
  have hgt := h.gt
  have hw := h.shape.wf
  obtain ⟨q, hq⟩ := h.rooted a (by omega) (by omega) hd
  have hqs : q ≠ A.next := by
    rintro rfl; exact h.orig a ha (by show S.arena.parent a = _; rw [hq, h.super])
  have hq1 : q ≠ A.next + 1 := by rintro rfl; exact h.not_slot0 ha0 hq
  obtain ⟨S', e, hr⟩ := Shadow.detachWithPlaceholder_repl h.shape hq (by rw [h.super]; exact hqs)
  refine ⟨S', .remove (S.computePath a), ?_, ?_, ?_⟩
  · unfold convertOp
    simp only [e, bind, Except.bind]
  · refine h.path_ne ha0 hq ?_
    rcases h.above a ha hmv q hq with hs | ⟨h1, h2⟩
    · exact .inl hs
    · have hqlt : q < A.next := haw.anc_lt h1 ha
      exact .inr (h.rooted q (by omega) hqs (hold q h1 h2))
  · have hnext := hr.next
    refine h.step hr.shape hr.super (by omega) (Nat.le_of_eq hr.slot.symm) ?_ ?_ ?_ ?_ (fun _ hx => hx) (fun _ hx => .inl hx)
    · rw [hr.children, if_neg hqs.symm]
    · rw [hr.children, if_neg hq1.symm]
    · intro m hm
      rw [hr.parent]
      by_cases h1 : m = a
      · subst h1
        exact .inr ⟨h.orig m ha, .inr ⟨by rw [if_pos rfl], .inr rfl⟩⟩
      · left; rw [if_neg h1, if_neg (by omega)]
    · intro m h1 h2
      exact ⟨q, by rw [hr.parent, if_neg (by omega), if_pos (by omega)]⟩

end ConvOk
end Hotmeal
