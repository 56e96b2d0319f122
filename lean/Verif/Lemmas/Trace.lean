import Verif.Lemmas.Step
import Verif.Lemmas.Opaque
import Verif.Props.Attrs

set_option autoImplicit false

/-!
# Running an edit script: conversion and application side by side
-/

namespace Hotmeal

/-- State of the conversion, of the document being patched, and the document node of each node of
the new tree, as far as it exists. -/
structure World where
  C : Conv
  D : Arena NodeData
  slots : Slots
  c : Nat → Option Nat

/-- The patch `P` emitted for `op` does what the operation asks for: its path leads to the document
node `g a` of the old tree's node `a` it is about, and inserted and moved nodes end up below the
document node of their new parent, at their new position. -/
def Addresses (g : Nat → Nat) (w : World) (op : EditOp) (P : Patch) (w1 : World) : Prop :=
  match op with
  | .updateProps a _ changes => w1.c = w.c ∧
    ∃ q, P = .updateProps q (toChanges changes) ∧ navigate w.D w.slots q = .ok (g a)
  | .setText a _ t => w1.c = w.c ∧ ∃ q, P = .setText q t ∧ navigate w.D w.slots q = .ok (g a)
  | .delete a => w1.c = w.c ∧ ∃ q, P = .remove q ∧ navigate w.D w.slots q = .ok (g a)
  | .insert b pb pos _ => w1.c = Arena.upd w.c b (some w.D.next) ∧
    ∃ p, w.c pb = some p ∧ w1.D.parent w.D.next = some p ∧
      (w1.D.children p)[pos]? = some w.D.next
  | .move a _ pb pos => w1.c = w.c ∧
    ∃ q to slot, P = .move q to slot ∧ navigate w.D w.slots q = .ok (g a) ∧
    ∃ p, w.c pb = some p ∧ w1.D.parent (g a) = some p ∧ (w1.D.children p)[pos]? = some (g a)

/-- A run in which every operation gives one patch, which is applied at once. -/
inductive Trace (B : Arena TData) (ins : List Nat) (step : StepFn) (g : Nat → Nat)
    (J : Nat → Prop) :
    World → List EditOp → List Patch → World → Prop
  | nil (w : World) : Trace B ins step g J w [] [] w
  | cons {w w1 w2 : World} {op : EditOp} {ops : List EditOp} {P : Patch} {ps : List Patch}
      (hc : convertOp B ins w.C op = .ok (w1.C, [P]))
      (hs : step w.D w.slots P = .ok (w1.D, w1.slots)) (hg : Addresses g w op P w1)
      (hr : Regular J w.D w.slots P)
      (ht : Trace B ins step g J w1 ops ps w2) : Trace B ins step g J w (op :: ops) (P :: ps) w2

/-- Apply a list of patches with a given applier, stopping at the first error. -/
def runPatches (step : StepFn) (A : Arena NodeData) (slots : Slots) :
    List Patch → Res (Arena NodeData × Slots)
  | [] => .ok (A, slots)
  | p :: ps => do
    let (A, slots) ← step A slots p
    runPatches step A slots ps

theorem applyLoop_eq (parse : Str → Document) (A : Arena NodeData) (slots : Slots)
    (ps : List Patch) : applyLoop parse A slots ps = runPatches (applyPatch parse) A slots ps := by
  induction ps generalizing A slots with
  | nil => rfl
  | cons p ps ih =>
    simp only [applyLoop, runPatches, bind, Except.bind]
    split
    · rfl
    · exact ih _ _

namespace Trace

variable {B : Arena TData} {ins : List Nat} {step : StepFn} {g : Nat → Nat} {J : Nat → Prop} {w w1 w2 : World}
  {ops ops' : List EditOp} {ps ps' : List Patch}

theorem append (h : Trace B ins step g J w ops ps w1) (h' : Trace B ins step g J w1 ops' ps' w2) :
    Trace B ins step g J w (ops ++ ops') (ps ++ ps') w2 := by
  induction h with
  | nil => exact h'
  | cons hc hs hg hr _ ih => exact .cons hc hs hg hr (ih h')

theorem convert (h : Trace B ins step g J w ops ps w1) :
    convertLoop B ins w.C ops = .ok (w1.C, ps) := by
  induction h with
  | nil => rfl
  | cons hc _ _ _ _ ih => simp only [convertLoop, hc, bind, Except.bind, ih, List.singleton_append]

theorem apply (h : Trace B ins step g J w ops ps w1) :
    runPatches step w.D w.slots ps = .ok (w1.D, w1.slots) := by
  induction h with
  | nil => rfl
  | cons _ hs _ _ _ ih => simp only [runPatches, hs, bind, Except.bind, ih]

theorem single {op : EditOp} {P : Patch} (hc : convertOp B ins w.C op = .ok (w1.C, [P]))
    (hs : step w.D w.slots P = .ok (w1.D, w1.slots)) (hg : Addresses g w op P w1)
    (hr : Regular J w.D w.slots P) :
    Trace B ins step g J w [op] [P] w1 := .cons hc hs hg hr (.nil _)

end Trace

/-! ### Inputs -/

/-- Tree data that comes from a document node. -/
def IsT (d : TData) : Prop := ∃ nd : NodeData, nd.kind ≠ .document ∧ d = tdataOf nd

theorem kindOf_tdataOf {nd : NodeData} (h : nd.kind ≠ .document) : kindOf (tdataOf nd) = nd.kind := by
  obtain ⟨k, ns⟩ := nd
  cases k <;> simp_all [kindOf, tdataOf]

/-- What the conversion needs to know about the two trees and the matching. -/
structure Plan (A B : Arena TData) (nb : Nat) (M : Matching) : Prop where
  aw : A.WF
  bw : B.WF
  apos : 0 < A.next
  a0 : A.parent 0 = none
  areach : ∀ n, n < A.next → A.Anc 0 n
  getB : ∀ a b, M.getB a = some b ↔ (a, b) ∈ M.pairs
  getA : ∀ a b, M.getA b = some a ↔ (a, b) ∈ M.pairs
  nd : M.pairs.Nodup
  lt : ∀ a b, (a, b) ∈ M.pairs → a < A.next ∧ B.Anc nb b
  root : (0, nb) ∈ M.pairs
  rootProps : (A.data 0).props = []
  kind : ∀ a b, (a, b) ∈ M.pairs → (A.data a).kind = (B.data b).kind
  at_ : ∀ a, a < A.next → IsT (A.data a) ∧ (kindOf (A.data a)).Clean
  bt : ∀ b, B.Anc nb b → IsT (B.data b) ∧ (kindOf (B.data b)).Clean
  elem : ∀ b pb, B.parent b = some pb → B.Anc nb pb → (kindOf (B.data pb)).IsElement
  relem : (kindOf (B.data nb)).IsElement
  clear : ∀ a b, (a, b) ∈ M.pairs → ¬ InsideOpaque A 0 a ∧ ¬ InsideOpaque B nb b
  opq : ∀ a b, (a, b) ∈ M.pairs → (A.data a).props.isOpaque = (B.data b).props.isOpaque

namespace Plan

variable {A B : Arena TData} {nb : Nat} {M : Matching}

theorem fn1 (h : Plan A B nb M) {a b b' : Nat} (h1 : (a, b) ∈ M.pairs) (h2 : (a, b') ∈ M.pairs) :
    b = b' := by
  have h1 := (h.getB a b).2 h1
  have h2 := (h.getB a b').2 h2
  rw [h1] at h2; injection h2

theorem fn2 (h : Plan A B nb M) {a a' b : Nat} (h1 : (a, b) ∈ M.pairs) (h2 : (a', b) ∈ M.pairs) :
    a = a' := by
  have h1 := (h.getA a b).2 h1
  have h2 := (h.getA a' b).2 h2
  rw [h1] at h2; injection h2

theorem fst_nodup (h : Plan A B nb M) : (M.pairs.map Prod.fst).Nodup := by
  rw [List.Nodup, List.pairwise_map]
  refine h.nd.imp_of_mem ?_
  rintro ⟨a, b⟩ ⟨a', b'⟩ h1 h2 hne rfl
  exact hne (by rw [h.fn1 h1 h2])

theorem snd_nodup (h : Plan A B nb M) : (M.pairs.map Prod.snd).Nodup := by
  rw [List.Nodup, List.pairwise_map]
  refine h.nd.imp_of_mem ?_
  rintro ⟨a, b⟩ ⟨a', b'⟩ h1 h2 hne rfl
  exact hne (by rw [h.fn2 h1 h2])

/-- Nodes of the old tree that are not inside opaque elements. -/
def Old (A : Arena TData) (n : Nat) : Prop := n < A.next ∧ ¬ InsideOpaque A 0 n

/-- The content of the opaque elements of the new tree: matched elements keep the content of the
old document, inserted elements get the new content. -/
def bodyOf (B : Arena TData) (M : Matching) (D : Arena NodeData) (f : Nat → Nat) (b : Nat) :
    Option (List Html) :=
  if (B.data b).props.isOpaque = true then
    match M.getA b with
    | some a => some (D.forest (f a))
    | none => some (InsertContent.htmlL (extractChildren B (fun _ => false) b))
  else none

/-- The conversion context. -/
def ctx (A B : Arena TData) (M : Matching) (D : Arena NodeData) (f : Nat → Nat) : Ctx :=
  ⟨A.next, Old A, fun n => Old A n ∧ (A.data n).props.isOpaque = false, A.parent, M.pairs, B,
    bodyOf B M D f⟩

/-- The root of the new tree is not opaque. -/
theorem root_clear (h : Plan A B nb M) : (B.data nb).props.isOpaque = false := by
  rw [← h.opq 0 nb h.root, h.rootProps]; rfl

theorem pair_old (h : Plan A B nb M) {a b : Nat} (hab : (a, b) ∈ M.pairs) : Old A a :=
  ⟨(h.lt a b hab).1, (h.clear a b hab).1⟩

theorem old_zero (h : Plan A B nb M) : Old A 0 := h.pair_old h.root

/-- Parents of nodes outside opaque content are not opaque. -/
theorem old_parent (h : Plan A B nb M) {n p : Nat} (hn : Old A n) (hp : A.parent n = some p) :
    Old A p ∧ (A.data p).props.isOpaque = false := by
  have hlt := (h.aw.lt_of_parent _ _ hp).2
  have hr := h.areach p hlt
  refine ⟨⟨hlt, fun e => hn.2 (e.of_parent h.aw hp)⟩, ?_⟩
  cases e : (A.data p).props.isOpaque with
  | false => rfl
  | true => exact absurd (InsideOpaque.of_opaque h.aw hp hr e) hn.2

theorem new_parent (h : Plan A B nb M) {n p : Nat} (hn : ¬ InsideOpaque B nb n)
    (hp : B.parent n = some p) (hr : B.Anc nb p) :
    ¬ InsideOpaque B nb p ∧ (B.data p).props.isOpaque = false := by
  refine ⟨fun e => hn (e.of_parent h.bw hp), ?_⟩
  cases e : (B.data p).props.isOpaque with
  | false => rfl
  | true => exact absurd (InsideOpaque.of_opaque h.bw hp hr e) hn

theorem bodyOf_none {D : Arena NodeData} {f : Nat → Nat} {b : Nat}
    (hb : (B.data b).props.isOpaque = false) : bodyOf B M D f b = none := by
  unfold bodyOf; rw [if_neg (by rw [hb]; simp)]

theorem initBToShadow_eq (h : Plan A B nb M) : initBToShadow M = M.getA := by
  have key : ∀ (ps : List (Nat × Nat)) (f : Nat → Option Nat),
      (ps.map Prod.snd).Nodup → ∀ b, ps.foldl (fun f p => Arena.upd f p.2 (some p.1)) f b =
        match ps.find? (fun p => p.2 = b) with
        | some p => some p.1
        | none => f b := by
    intro ps
    induction ps with
    | nil => intro f _ b; rfl
    | cons p ps ih =>
      intro f hnd b
      simp only [List.map_cons, List.nodup_cons] at hnd
      rw [List.foldl_cons, ih _ hnd.2]
      by_cases e : p.2 = b
      · have hf : ps.find? (fun q => q.2 = b) = none := by
          rw [List.find?_eq_none]
          intro q hq
          simp only [decide_eq_true_eq]
          intro e2
          exact hnd.1 (List.mem_map.2 ⟨q, hq, by rw [e2, e]⟩)
        rw [hf]
        simp [e]
      · simp [e, Arena.upd_ne _ _ (Ne.symm e)]
  funext b
  unfold initBToShadow
  rw [key _ _ h.snd_nodup]
  cases hf : M.pairs.find? (fun p => p.2 = b) with
  | some p =>
    have h1 := List.find?_some hf
    have h2 := List.mem_of_find?_eq_some hf
    simp only [decide_eq_true_eq] at h1
    obtain ⟨a, b'⟩ := p
    simp only at h1; subst h1
    exact ((h.getA _ _).2 h2).symm
  | none =>
    cases hg : M.getA b with
    | none => rfl
    | some a =>
      have := List.find?_eq_none.1 hf _ ((h.getA _ _).1 hg)
      simp at this

end Plan

/-! ### Initial shadow tree -/

structure ShadowInit (A : Arena TData) (S : Shadow) : Prop where
  shape : S.Shape
  super : S.superRoot = A.next
  slots : S.nextSlot = 1
  next : S.arena.next = A.next + 2
  parent : ∀ m, S.arena.parent m = if m = 0 then some (A.next + 1)
    else if m = A.next + 1 then some A.next else A.parent m
  children : ∀ m, S.arena.children m = if m = A.next + 1 then [0]
    else if m = A.next then [A.next + 1] else A.children m

theorem Shadow.new_init {A : Arena TData} (hw : A.WF) (hpos : 0 < A.next) (h0 : A.parent 0 = none) :
    ∃ S, Shadow.new A 0 = .ok S ∧ ShadowInit A S := by
  have w1 := hw.newNode Shadow.marker
  have w2 := w1.newNode Shadow.marker
  have p1 := hw.newNode_parent Shadow.marker
  have p2 := w1.newNode_parent Shadow.marker
  have c1 := hw.newNode_children Shadow.marker
  have c2 := w1.newNode_children Shadow.marker
  generalize hA1 : (A.newNode Shadow.marker).1 = A1 at *
  have n1 : A1.next = A.next + 1 := by rw [← hA1]; rfl
  have e1 : (A1.newNode Shadow.marker).2 = A.next + 1 := by rw [Arena.newNode_snd, n1]
  have n2 : (A1.newNode Shadow.marker).1.next = A.next + 2 := by rw [Arena.newNode_next, n1]
  generalize hA2 : (A1.newNode Shadow.marker).1 = A2 at *
  have hpar2 : ∀ m, A2.parent m = A.parent m := fun m => (p2 m).trans (p1 m)
  have hch2 : ∀ m, A2.children m = A.children m := fun m => (c2 m).trans (c1 m)
  -- append slot0 below super
  have hanc1 : ¬ A2.Anc (A.next + 1) A.next := by
    intro h
    have h' : A.Anc (A.next + 1) A.next := (Arena.anc_congr hpar2).1 h
    rcases h'.cases' with e | ⟨q, hq, _⟩
    · omega
    · have := (hw.lt_of_parent _ _ hq).1; omega
  have a1 := w2.append_ok hanc1
  have w3 := w2.appendRaw (by omega : A.next < A2.next) (by omega : A.next + 1 < A2.next) hanc1
  have hnp : A2.parent (A.next + 1) = none := by
    rw [hpar2]; exact hw.parent_ge (by omega)
  generalize hA3 : A2.appendRaw A.next (A.next + 1) = A3 at *
  have hpar3 : ∀ m, A3.parent m = if m = A.next + 1 then some A.next else A.parent m := by
    intro m
    rw [← hA3]
    simp only [Arena.appendRaw, Arena.detach_of_parent_none hnp, Arena.upd_apply, hpar2]
  have hch3 : ∀ m, A3.children m = if m = A.next then [A.next + 1] else A.children m := by
    intro m
    rw [← hA3]
    simp only [Arena.appendRaw, Arena.detach_of_parent_none hnp, Arena.upd_apply, hch2,
      hw.children_ge (Nat.le_refl _), List.nil_append]
  have n3 : A3.next = A.next + 2 := by
    rw [← hA3]; simp only [Arena.appendRaw, Arena.detach_next]; exact n2
  have h03 : A3.parent 0 = none := by rw [hpar3, if_neg (by omega), h0]
  have hanc2 : ¬ A3.Anc 0 (A.next + 1) := by
    intro h
    rcases h.cases' with e | ⟨q, hq, h'⟩
    · omega
    · rw [hpar3, if_pos rfl] at hq; cases hq
      rcases h'.cases' with e | ⟨q, hq, _⟩
      · omega
      · rw [hpar3, if_neg (by omega), hw.parent_ge (Nat.le_refl _)] at hq; cases hq
  have a2 := w3.append_ok hanc2
  have w4 := w3.appendRaw (by omega : A.next + 1 < A3.next) (by omega : 0 < A3.next) hanc2
  have hpar4 : ∀ m, (A3.appendRaw (A.next + 1) 0).parent m = if m = 0 then some (A.next + 1)
      else if m = A.next + 1 then some A.next else A.parent m := by
    intro m
    simp only [Arena.appendRaw, Arena.detach_of_parent_none h03, Arena.upd_apply, hpar3]
  have hch4 : ∀ m, (A3.appendRaw (A.next + 1) 0).children m = if m = A.next + 1 then [0]
      else if m = A.next then [A.next + 1] else A.children m := by
    intro m
    simp only [Arena.appendRaw, Arena.detach_of_parent_none h03, Arena.upd_apply, hch3,
      hw.children_ge (by omega : A.next ≤ A.next + 1)]
    by_cases e : m = A.next + 1
    · subst e; simp
    · rw [if_neg e, if_neg e]
  have n4 : (A3.appendRaw (A.next + 1) 0).next = A.next + 2 := by
    simp only [Arena.appendRaw, Arena.detach_next]; exact n3
  refine ⟨⟨A3.appendRaw (A.next + 1) 0, A.next, 1⟩, ?_, ⟨w4, ?_, ?_, ?_⟩, rfl, rfl, n4, hpar4, hch4⟩
  · simp only [Shadow.new, hA1, Arena.newNode_snd, hA2, n1, a1, bind, Except.bind,
      Arena.detach_of_parent_none h03, a2]
  · show A.next < (A3.appendRaw (A.next + 1) 0).next
    omega
  · show (A3.appendRaw (A.next + 1) 0).parent A.next = none
    rw [hpar4, if_neg (by omega), if_neg (by omega), hw.parent_ge (Nat.le_refl _)]
  · show ((A3.appendRaw (A.next + 1) 0).children A.next).length = 1
    rw [hch4, if_neg (by omega), if_pos rfl]; rfl

end Hotmeal
