import Verif.Props.Apply
import Verif.Props.Script

set_option autoImplicit false
set_option linter.unusedSectionVars false

/-!
# C03: each patch addresses the intended node
-/

namespace Hotmeal

namespace Trace

variable {B : Arena TData} {ins : List Nat} {step : StepFn} {g : Nat → Nat} {J : Nat → Prop}
  {w w1 w2 : World}
  {ops : List EditOp} {ps : List Patch}

theorem length_eq (h : Trace B ins step g J w ops ps w2) : ps.length = ops.length := by
  induction h with
  | nil => rfl
  | cons _ _ _ _ _ ih => simp [ih]

/-- The counterpart of a node changes only when it is inserted. -/
theorem c_stable (h : Trace B ins step g J w ops ps w2) {b : Nat} (hb : b ∉ insertedNodes ops) :
    w2.c b = w.c b := by
  induction h with
  | nil => rfl
  | @cons w w1 w2 op ops P ps hc hs hg hr ht ih =>
    have hb' : b ∉ insertedNodes ops := by
      intro h
      refine hb ?_
      rw [show op :: ops = [op] ++ ops from rfl, insertedNodes_append]
      exact List.mem_append_right _ h
    rw [ih hb']
    cases op with
    | insert b' pb pos k =>
      have : b ≠ b' := by
        rintro rfl
        exact hb (by simp [insertedNodes])
      rw [hg.1, Arena.upd_ne _ _ this]
    | updateProps => rw [hg.1]
    | setText => rw [hg.1]
    | delete => rw [hg.1]
    | move => rw [hg.1]

/-- Splitting a run at an operation. -/
theorem split_at (h : Trace B ins step g J w ops ps w2) :
    ∀ i op, ops[i]? = some op → ∃ P w1 w1', ps[i]? = some P ∧
      Trace B ins step g J w (ops.take i) (ps.take i) w1 ∧
      step w1.D w1.slots P = .ok (w1'.D, w1'.slots) ∧ Addresses g w1 op P w1' ∧
      Trace B ins step g J w1' (ops.drop (i + 1)) (ps.drop (i + 1)) w2 := by
  induction h with
  | nil => intro i op e; simp at e
  | @cons w w1 w2 op ops P ps hc hs hg hr ht ih =>
    intro i op' e
    cases i with
    | zero =>
      simp only [List.getElem?_cons_zero, Option.some.injEq] at e
      subst e
      exact ⟨P, w, w1, rfl, .nil w, hs, hg, ht⟩
    | succ i =>
      simp only [List.getElem?_cons_succ] at e
      obtain ⟨P', v, v', h1, h2, h3, h4, h5⟩ := ih i op' e
      exact ⟨P', v, v', h1, .cons hc hs hg hr h2, h3, h4, h5⟩

end Trace

/-- The patch `P`, applied to the document `(D, slots)` giving `D'`, does what `op` asks for. `g` gives
the document node of each node of the old tree, `cn` the document node of each node of the new tree. -/
def Hits (g cn : Nat → Nat) (D : Arena NodeData) (slots : Slots) (op : EditOp) (P : Patch)
    (D' : Arena NodeData) : Prop :=
  match op with
  | .updateProps a b changes => cn b = g a ∧ ∃ q, P = .updateProps q (toChanges changes) ∧
    Leads D slots q (g a)
  | .setText a b t => cn b = g a ∧ ∃ q, P = .setText q t ∧ Leads D slots q (g a)
  | .delete a => ∃ q, P = .remove q ∧ Leads D slots q (g a)
  | .insert b pb pos _ => cn b = D.next ∧ D'.parent (cn b) = some (cn pb) ∧
    (D'.children (cn pb))[pos]? = some (cn b)
  | .move a b pb pos => cn b = g a ∧ ∃ q to slot, P = .move q to slot ∧ Leads D slots q (g a) ∧
    D'.parent (cn b) = some (cn pb) ∧ (D'.children (cn pb))[pos]? = some (cn b)

variable {H : Type} [DecidableEq H] {hashNode : HKind → Option Str → List H → H}
  {old new : Document} {ob nb : Nat}

/-- The path of a node in a fresh shadow tree leads to that node in the old document. -/
theorem Built.leads {T : Arena TData} {g : Nat → Nat} (hb : Built old ob T g) {S : Shadow}
    (hS : ShadowInit T S) {slots : Slots} (h0 : slots 0 = some ob) {a : Nat} (ha : a < T.next) :
    Leads old.arena slots (S.computePath a) (g a) := by
  have hns : ∀ n, n < T.next → ¬ S.IsSlot n := by
    intro n hn
    simp only [Shadow.IsSlot, hS.super, hS.parent]
    intro e
    by_cases e1 : n = 0
    · rw [if_pos e1] at e; injection e with e; omega
    · rw [if_neg e1, if_neg (by omega)] at e
      have := (hb.wf.lt_of_parent _ _ e).2; omega
  have hslot : S.IsSlot (T.next + 1) := by
    show S.arena.parent _ = some S.superRoot
    rw [hS.super, hS.parent, if_neg (by omega), if_pos rfl]
  suffices ∃ q, S.IsPath a q ∧ Leads old.arena slots q (g a) by
    obtain ⟨q, h1, h2⟩ := this
    rw [h1.computePath_eq hS.shape.wf]; exact h2
  revert ha
  refine hb.wf.induct_up (P := fun a => a < T.next → ∃ q, S.IsPath a q ∧ Leads old.arena slots q (g a)) ?_ a
  intro a ih ha
  by_cases ha0 : a = 0
  · subst ha0
    refine ⟨_, .base (by rw [hS.parent, if_pos rfl]) hslot, ?_⟩
    have : Arena.posIn (S.arena.children S.superRoot) (T.next + 1) = 0 := by
      rw [hS.children, hS.super, if_neg (by omega), if_pos rfl]
      simp [Arena.posIn]
    rw [this, hb.g0]
    exact .slot h0
  · rcases (hb.reach a ha).cases' with e | ⟨p, hp, _⟩
    · exact absurd e.symm ha0
    · have hp' := (hb.wf.lt_of_parent _ _ hp).2
      obtain ⟨q, h1, h2⟩ := ih p hp hp'
      refine ⟨_, .step (by rw [hS.parent, if_neg ha0, if_neg (by omega), hp]) (hns p hp') h1, ?_⟩
      refine h2.child ?_
      have hm := (hb.wf.mem_iff _ _).2 hp
      rw [hS.children, if_neg (by omega), if_neg (by omega), hb.kids p hp', List.getElem?_map,
        Arena.getElem?_posIn hm]
      rfl

/-- **C03**, partial (same restrictions as `C01_round_trip_opaque_partial`): the patch list is followed by
reports about opaque elements; patch number `i` before them belongs to edit operation number `i`. When the patches before it have been applied, its path leads to the document node of the
old node the operation is about; an inserted or moved node is put below the document node of its new
parent, at its index in the new document. Here `g` identifies the nodes of the old tree with the body
content of the old document (`Built`) and `cn` those of the new tree with the body content of the
final document (`Mirror`). -/
theorem C03_patches_hit_their_nodes_partial (parse : Str → Document) (h : Comparable old new ob nb)
    (hc : NoCollision hashNode (buildTree old ob) (diffable new) nb)
    (ho : OpaqueAgree hashNode old new ob nb)
    (hf : NoMoveBelowSelf hashNode old new ob nb ∨ NoInversion hashNode old new ob nb) :
    ∃ ps rs A g cn, diff hashNode old new = .ok (ps ++ rs) ∧ (∀ P ∈ rs, P.isReport = true) ∧
      applyPatches parse old ps = .ok { old with arena := A } ∧
      Built old ob (buildTree old ob) g ∧
      Mirror (diffable new) nb A ob
        (Plan.rootKind (old.arena.data ob).kind ((diffable new).data nb).props)
        (Plan.bodyOf (diffable new) (diffMatching (oldTree hashNode old ob) (newTree hashNode new nb))
          old.arena g) cn ∧
      ps.length = (script hashNode old new ob nb).length ∧
      ∀ i op, (script hashNode old new ob nb)[i]? = some op → ∃ P D slots D' slots',
        ps[i]? = some P ∧
        applyLoop parse (initSlots old).1.arena (initSlots old).2 (ps.take i) = .ok (D, slots) ∧
        applyPatch parse D slots P = .ok (D', slots') ∧ Hits g cn D slots op P D' := by
  obtain ⟨f, hd, hb⟩ := h.docRel_old
  obtain ⟨S0, ps, w, cn, _, e, ht, hcn, hm, hfr⟩ := h.run hc ho hf (lawful_native parse _) hd
    (slots := Arena.upd (fun _ => none) 0 (some ob)) (by simp)
  have hp := h.plan hashNode hc ho hb
  have hinit : (initSlots old).1.arena = old.arena ∧
      (initSlots old).2 = Arena.upd (fun _ => none) 0 (some ob) := by
    rw [h.initSlots_eq]; exact ⟨rfl, rfl⟩
  refine ⟨ps, _, w.D, f, cn, e, reports_isReport S0, h.applyPatches_eq parse ps ht.apply, hb, hm, ht.length_eq, ?_⟩
  intro i op hop
  obtain ⟨P, w1, w1', h1, h2, h3, h4, h5⟩ := ht.split_at i op hop
  refine ⟨P, w1.D, w1.slots, w1'.D, w1'.slots, h1, ?_, h3, ?_⟩
  · rw [hinit.1, hinit.2, applyLoop_eq]; exact h2.apply
  have hmem : op ∈ scriptOf hashNode (buildTree old ob) (diffable new) 0 nb
      (diffMatching (oldTree hashNode old ob) (newTree hashNode new nb)) := List.mem_of_getElem? hop
  have hBw := hp.bw
  have hins := C10_inserted_once_parents_first (hashNode := hashNode) (A := buildTree old ob)
    (ra := 0) (rb := nb) hBw (diffMatching (oldTree hashNode old ob) (newTree hashNode new nb))
  -- nodes inserted later have no counterpart yet, so counterparts never change
  have hsplit : insertedNodes (script hashNode old new ob nb) =
      insertedNodes ((script hashNode old new ob nb).take i) ++
      (insertedNodes [op] ++ insertedNodes ((script hashNode old new ob nb).drop (i + 1))) := by
    rw [← insertedNodes_append, ← insertedNodes_append]
    congr 1
    have hi : i < (script hashNode old new ob nb).length := by
      rcases Nat.lt_or_ge i (script hashNode old new ob nb).length with hlt | hge
      · exact hlt
      · rw [List.getElem?_eq_none hge] at hop; cases hop
    rw [List.getElem?_eq_getElem hi, Option.some.injEq] at hop
    conv => lhs; rw [← List.take_append_drop i (script hashNode old new ob nb),
      List.drop_eq_getElem_cons hi, hop]
    rfl
  have hnd : (insertedNodes (script hashNode old new ob nb)).Nodup := hins.1
  have hnone : ∀ b, b ∈ insertedNodes (script hashNode old new ob nb) →
      (diffMatching (oldTree hashNode old ob) (newTree hashNode new nb)).getA b = none := by
    intro b hb'
    unfold insertedNodes at hb'
    rw [List.mem_filterMap] at hb'
    obtain ⟨o, ho, e⟩ := hb'
    cases o with
    | insert b' pb pos k =>
      simp only [Option.some.injEq] at e
      subst e
      exact ((C10_inserts_are_the_unmatched hBw _ _ _ _ _).1 ho).2.1
    | _ => cases e
  have hfin : ∀ b x, w1'.c b = some x → w.c b = some x := by
    intro b x hx
    rw [h5.c_stable, hx]
    intro hb'
    have hin : b ∈ insertedNodes (script hashNode old new ob nb) := by
      rw [hsplit]; simp [hb']
    rw [hsplit, List.nodup_append, List.nodup_append] at hnd
    have hb1 : b ∉ insertedNodes ((script hashNode old new ob nb).take i) := fun hh =>
      hnd.2.2 b hh b (List.mem_append_right _ hb') rfl
    have hb2 : b ∉ insertedNodes [op] := fun hh => hnd.2.1.2.2 b hh b hb' rfl
    have e1 : w1.c b = none := by
      rw [h2.c_stable hb1]
      show Option.map f _ = none
      rw [hnone b hin]; rfl
    have e2 : w1'.c b = w1.c b := by
      cases op with
      | insert b' pb pos k =>
        rw [h4.1, Arena.upd_ne]
        rintro rfl
        exact hb2 (by simp [insertedNodes])
      | updateProps => rw [h4.1]
      | setText => rw [h4.1]
      | delete => rw [h4.1]
      | move => rw [h4.1]
    rw [e2, e1] at hx
    cases hx
  have hpair : ∀ a b, (a, b) ∈ (diffMatching (oldTree hashNode old ob) (newTree hashNode new nb)).pairs →
      cn b = f a := by
    intro a b hab
    have hA := (hp.getA a b).2 hab
    have hb' : b ∉ insertedNodes (script hashNode old new ob nb) := by
      intro hh
      rw [hnone b hh] at hA; cases hA
    have e1 := ht.c_stable hb'
    rw [hcn b (anc_of_diffable (hp.lt a b hab).2) (hp.clear a b hab).2] at e1
    have e2 : some (cn b) = Option.map f
        ((diffMatching (oldTree hashNode old ob) (newTree hashNode new nb)).getA b) := e1
    rw [hA] at e2
    injection e2
  have hroot : ∀ a, (a, nb) ∈ (diffMatching (oldTree hashNode old ob) (newTree hashNode new nb)).pairs →
      a = 0 := fun a ha => hp.fn2 ha hp.root
  -- the counterpart of the parent
  have hpar : ∀ b pb p, new.arena.Anc nb b → ¬ InsideOpaque (diffable new) nb b → b ≠ nb →
      (diffable new).parent b = some pb → w1.c pb = some p → cn pb = p := by
    intro b pb p hb' hin hne hbp hpc
    have hanc : new.arena.Anc nb pb := by
      rcases hb'.cases' with e | ⟨q, hq, hq'⟩
      · exact absurd e.symm hne
      · have : some q = some pb := hq.symm.trans hbp
        cases this; exact hq'
    have hx : w1'.c pb = some p := by
      cases op with
      | insert b' pb' pos k =>
        rw [h4.1, Arena.upd_apply]
        split
        · next e =>
          subst e
          exfalso
          have hin : pb ∈ insertedNodes [EditOp.insert pb pb' pos k] := by simp [insertedNodes]
          have hin' : pb ∈ insertedNodes (script hashNode old new ob nb) := by
            rw [hsplit]; simp [hin]
          have hnd' := hnd
          rw [hsplit, List.nodup_append] at hnd'
          have hb1 : pb ∉ insertedNodes ((script hashNode old new ob nb).take i) := fun hh =>
            hnd'.2.2 pb hh pb (List.mem_append_left _ hin) rfl
          rw [h2.c_stable hb1] at hpc
          have hpc' : Option.map f ((diffMatching (oldTree hashNode old ob)
            (newTree hashNode new nb)).getA pb) = some p := hpc
          rw [hnone pb hin'] at hpc'; cases hpc'
        · exact hpc
      | updateProps => rw [h4.1]; exact hpc
      | setText => rw [h4.1]; exact hpc
      | delete => rw [h4.1]; exact hpc
      | move => rw [h4.1]; exact hpc
    have := hfin pb p hx
    rw [hcn pb hanc fun hh => hin (.of_parent hBw hbp hh)] at this
    injection this
  cases op with
  | updateProps a b changes =>
    obtain ⟨_, q, e1, e2⟩ := h4
    obtain ⟨p, h6, _, _, h7⟩ := mem_updateOps.1 ((mem_script_phase hmem).2.2.2 rfl)
    have : p = (a, b) := by
      rcases h7 with h7 | h7
      · unfold textOps at h7
        split at h7
        · cases h7
        · split at h7
          · simp at h7
          · cases h7
      · rw [Plan.propOps_eq] at h7
        split at h7
        · simp only [List.mem_singleton] at h7; cases h7; rfl
        · cases h7
    subst this
    exact ⟨hpair _ _ h6, q, e1, navigate_ok_iff.1 e2⟩
  | setText a b t =>
    obtain ⟨_, q, e1, e2⟩ := h4
    exact ⟨hpair _ _ ((C13_text_updates_exactly_when_needed hp.aw hBw _ _ _ _).1 hmem).1, q, e1,
      navigate_ok_iff.1 e2⟩
  | delete a =>
    obtain ⟨_, q, e1, e2⟩ := h4
    exact ⟨q, e1, navigate_ok_iff.1 e2⟩
  | insert b pb pos k =>
    obtain ⟨e0, p, e1, e2, e3⟩ := h4
    obtain ⟨g1, g2, g3, g4, g5, _⟩ := (C10_inserts_are_the_unmatched hBw _ _ _ _ _).1 hmem
    have hne : b ≠ nb := by
      rintro rfl
      rw [(hp.getA 0 b).2 hp.root] at g2; cases g2
    have hbanc : new.arena.Anc nb b := anc_of_diffable g1
    have hcb : cn b = w1.D.next := by
      have hx : w1'.c b = some w1.D.next := by rw [e0, Arena.upd_apply, if_pos rfl]
      have := hfin b _ hx
      rw [hcn b hbanc g3] at this
      injection this
    have hcp := hpar b pb p hbanc g3 hne g4 e1
    refine ⟨hcb, ?_, ?_⟩
    · rw [hcb, hcp]; exact e2
    · rw [hcb, hcp]; exact e3
  | move a b pb pos =>
    obtain ⟨e0, q, to, slot, e1, e2, p, e3, e4, e5⟩ := h4
    obtain ⟨g1, _, _, g4, _, pa, g6, _⟩ := (C12_moves_exactly_when_needed hp.aw hBw _ _ _ _ _).1 hmem
    have hne : b ≠ nb := by
      rintro rfl
      rw [hroot a g1, hp.a0] at g6; cases g6
    have hbanc : new.arena.Anc nb b := anc_of_diffable (hp.lt a b g1).2
    have hcp := hpar b pb p hbanc (hp.clear a b g1).2 hne g4 e3
    have hcb := hpair a b g1
    refine ⟨hcb, q, to, slot, e1, navigate_ok_iff.1 e2, ?_, ?_⟩
    · rw [hcb, hcp]; exact e4
    · rw [hcb, hcp]; exact e5

/-- The hypotheses hold for `ex1`, `ex2`, and the script has an operation of every phase, so every
clause of `Hits` is used. -/
example : Comparable (.ofForest ex1) (.ofForest ex2) 2 2 ∧
    NoCollision Shape.node (buildTree (.ofForest ex1) 2) (diffable (.ofForest ex2)) 2 ∧
    OpaqueAgree Shape.node (.ofForest ex1) (.ofForest ex2) 2 2 ∧
    NoMoveBelowSelf Shape.node (.ofForest ex1) (.ofForest ex2) 2 2 ∧
    phaseCounts (script Shape.node (.ofForest ex1) (.ofForest ex2) 2 2) = [2, 3, 4, 2] :=
  ⟨comparable_ofForest (by decide +kernel) (by decide +kernel), noCollision_shape _ _ _,
    (opaqueFixed_ofForest (by decide +kernel) (by decide +kernel)).agree,
    noMoveBelowSelf_of_movesSafe (by decide +kernel), by decide +kernel⟩

end Hotmeal
