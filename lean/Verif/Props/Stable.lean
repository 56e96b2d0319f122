import Verif.Props.Address
import Verif.Lemmas.Swap

set_option autoImplicit false
set_option linter.unusedSectionVars false

/-!
# C17: edits never shift siblings
-/

namespace Hotmeal

/-- The path of the node that a patch takes away from its place. -/
def Patch.takes : Patch → Option Path
  | .remove q => some q
  | .move q _ _ => some q
  | _ => none

/-- The path of the node whose own content a patch changes. -/
def Patch.edits : Patch → Option Path
  | .setText q _ => some q
  | .setAttribute q _ _ => some q
  | .removeAttribute q _ => some q
  | .updateProps q _ => some q
  | .opaqueChanged q _ => some q
  | _ => none

/-- What a patch leaves alone. Every node of the document that is a child keeps its parent and its
child index, except the node that the patch takes away and the one that it displaces to its slot; the
latter has no parent afterwards. A node without parent stays without parent unless it is the one that
the patch moves. A node keeps its own data unless the patch is an edit of just that node. -/
structure Undisturbed (D : Arena NodeData) (slots : Slots) (P : Patch) (D' : Arena NodeData)
    (slots' : Slots) : Prop where
  place : ∀ n p j : Nat, (D.children p)[j]? = some n → (D'.children p)[j]? = some n ∨
    (∃ q, P.takes = some q ∧ Leads D slots q n) ∨
    (∃ k, P.slot = some k ∧ slots' k = some n ∧ D'.parent n = none)
  free : ∀ n, n < D.next → D.parent n = none → D'.parent n = none ∨
    (∃ q, P.takes = some q ∧ Leads D slots q n)
  data : ∀ n, n < D.next → D'.data n = D.data n ∨ (∃ q, P.edits = some q ∧ Leads D slots q n)

theorem DPut.place {D D' : Arena NodeData} {x p pos occ : Nat} (h : DPut D D' x p pos occ) (hw : D.WF)
    (hx : D.parent x = none) {n m j : Nat} (hn : (D.children m)[j]? = some n) :
    (D'.children m)[j]? = some n ∨ (n = occ ∧ D'.parent n = none) := by
  have hop := (hw.mem_iff _ _).1 (List.mem_of_getElem? h.at_)
  rw [h.children]
  by_cases e : m = p
  · subst e
    rw [if_pos rfl]
    by_cases ej : j = pos
    · subst ej
      rw [h.at_] at hn
      cases hn
      refine .inr ⟨rfl, ?_⟩
      cases e : D'.parent occ with
      | none => rfl
      | some q =>
        exfalso
        have hm := (h.wf.mem_iff _ _).2 e
        rw [h.children] at hm
        split at hm
        · next eq =>
          subst eq
          obtain ⟨i, hi⟩ := List.getElem?_of_mem hm
          rw [List.getElem?_set] at hi
          split at hi
          · split at hi
            · cases hi; rw [hx] at hop; cases hop
            · cases hi
          · next hne =>
            exact hne ((List.nodup_getElem?_inj (hw.nodup _)
              (h.at_) hi))
        · next hne =>
          have := (hw.mem_iff _ _).1 hm
          rw [hop] at this
          cases this
          exact hne rfl
    · rw [List.getElem?_set_ne (fun e => ej e.symm)]
      exact .inl hn
  · rw [if_neg e]; exact .inl hn

theorem DPut.free {D D' : Arena NodeData} {x p pos occ : Nat} (h : DPut D D' x p pos occ) (hw : D.WF)
    {n : Nat} (hn : D.parent n = none) (hne : n ≠ x) : D'.parent n = none := by
  cases e : D'.parent n with
  | none => rfl
  | some q =>
    exfalso
    have hm := (h.wf.mem_iff _ _).2 e
    rw [h.children] at hm
    split at hm
    · rcases List.mem_or_eq_of_mem_set hm with hm | hm
      · rw [(hw.mem_iff _ _).1 hm] at hn; cases hn
      · exact hne hm
    · rw [(hw.mem_iff _ _).1 hm] at hn; cases hn

theorem DApp.place {D D' : Arena NodeData} {x p pos : Nat} (h : DApp D D' x p pos)
    (hl : (D.children p).length ≤ pos) {n m j : Nat} (hn : (D.children m)[j]? = some n) :
    (D'.children m)[j]? = some n := by
  by_cases e : m = p
  · subst e
    obtain ⟨rest, _, hc⟩ := h.children
    rw [hc, List.take_of_length_le hl, List.append_assoc, List.getElem?_append_left]
    · exact hn
    · rcases Nat.lt_or_ge j (D.children m).length with hlt | hge
      · exact hlt
      · rw [List.getElem?_eq_none hge] at hn; cases hn
  · rw [h.children_ne _ e]; exact hn

theorem DApp.free {D D' : Arena NodeData} {x p pos : Nat} (h : DApp D D' x p pos) (hw : D.WF)
    {n : Nat} (hlt : n < D.next) (hn : D.parent n = none) (hne : n ≠ x) : D'.parent n = none := by
  cases e : D'.parent n with
  | none => rfl
  | some q =>
    exfalso
    have hm := (h.wf.mem_iff _ _).2 e
    by_cases eq : q = p
    · subst eq
      obtain ⟨rest, hs, hc⟩ := h.children
      rw [hc] at hm
      simp only [List.mem_append, List.mem_cons, List.mem_range'] at hm
      have hd : ∀ z, z ∈ D.children q → z ≠ n := by
        rintro z hz rfl
        rw [(hw.mem_iff _ _).1 hz] at hn; cases hn
      rcases hm with (hm | ⟨i, _, rfl⟩) | hm | hm
      · exact hd _ (List.mem_of_mem_take hm) rfl
      · omega
      · exact hne hm
      · exact hd _ (List.mem_of_mem_drop (hs.mem hm)) rfl
    · rw [h.children_ne _ eq] at hm
      rw [(hw.mem_iff _ _).1 hm] at hn; cases hn

/-- The step: a regular patch leaves everything else alone, for every lawful applier. -/
theorem Regular.undisturbed {root : Nat} {step : StepFn} (hlaw : Lawful root step)
    {J : Nat → Prop} (hJ : ∀ n, ¬ J n) {D D' : Arena NodeData} {slots slots' : Slots} {P : Patch}
    (hw : D.WF) (h0 : slots 0 = some root) (hr : Regular J D slots P)
    (hs : step D slots P = .ok (D', slots')) :
    D'.WF ∧ slots' 0 = some root ∧ Undisturbed D slots P D' slots' := by
  have hlen : ∀ (D : Arena NodeData) p pos, (∀ j ∈ (D.children p).drop pos, J j) →
      (D.children p).length ≤ pos := by
    intro D p pos hj
    rcases Nat.lt_or_ge pos (D.children p).length with hlt | hge
    · exfalso
      rw [List.drop_eq_getElem_cons hlt] at hj
      exact hJ _ (hj (D.children p)[pos] List.mem_cons_self)
    · exact hge
  have hset : ∀ n d q, P.edits = some q → navigate D slots q = .ok n →
      (D.setData n d).WF ∧ slots 0 = some root ∧ Undisturbed D slots P (D.setData n d) slots := by
    intro n d q hq hn
    refine ⟨hw.setData _ _, h0, ⟨fun m p j hm => .inl hm, fun m _ hm => .inl hm, fun m _ => ?_⟩⟩
    by_cases e : m = n
    · subst e; exact .inr ⟨q, hq, navigate_ok_iff.1 hn⟩
    · exact .inl (by simp [Arena.setData, Arena.upd_ne _ _ e])
  cases hr with
  | setText q n s ns t hq hd =>
    rcases hd with hd | hd
    · rw [hlaw.setText_text D slots q n s ns t h0 hq hd] at hs
      cases hs
      exact hset _ _ _ rfl hq
    · rw [hlaw.setText_comment D slots q n s ns t h0 hq hd] at hs
      cases hs
      exact hset _ _ _ rfl hq
  | updateProps q n tag attrs ns changes hq hd hk hn ht =>
    rw [hlaw.updateProps D slots q n tag attrs ns changes h0 hq hd hk hn ht] at hs
    cases hs
    exact hset _ _ _ rfl hq
  | remove q n p hq hl hp =>
    obtain ⟨D1, e1, hr⟩ := hlaw.remove D slots q n p h0 hw hq hl hp
    rw [e1] at hs; cases hs
    refine ⟨hr.wf, h0, ⟨fun m p' j hm => ?_, fun m hlt hm => ?_, fun m hlt => ?_⟩⟩
    · by_cases e : m = n
      · subst e; exact .inr (.inl ⟨q, rfl, navigate_ok_iff.1 hq⟩)
      · refine .inl ?_
        rw [hr.children]
        split
        · next ep => subst ep; rw [Arena.swapIn_getElem?, hm]; simp [e]
        · exact hm
    · refine .inl ?_
      rw [hr.parent]
      split
      · rfl
      · rw [if_neg (by omega)]; exact hm
    · refine .inl ?_
      rw [hr.data, if_neg (by omega)]
  | removeFree k n hk hsk hn hp =>
    obtain ⟨D1, s1, e1, hD, hsl⟩ := hlaw.removeFree D slots k n h0 hw hk hsk hn hp
    rw [e1] at hs; cases hs
    have hs0 : slots' 0 = some root := by
      rcases hsl with rfl | rfl
      · exact h0
      · rw [Arena.upd_ne _ _ (Ne.symm hk)]; exact h0
    rcases hD with rfl | rfl
    · exact ⟨hw, hs0, ⟨fun m p j hm => .inl hm, fun m _ hm => .inl hm, fun m _ => .inl rfl⟩⟩
    · refine ⟨hw.newNode _, hs0, ⟨fun m p j hm => .inl ?_, fun m _ hm => .inl ?_, fun m hlt => .inl ?_⟩⟩
      · rw [hw.newNode_children]; exact hm
      · rw [hw.newNode_parent]; exact hm
      · rw [Arena.newNode_data, if_neg (by omega)]
  | insert q nk cs p pos slot hc hcs hq he hp ha =>
    obtain ⟨D1, hcr, _, _, hput, happ⟩ := hlaw.insert D slots q nk cs p h0 hw hc hcs hq he hp
    have hsl : (insertPatch (q ++ [pos]) nk cs slot).slot = slot := by
      cases nk <;> rfl
    have hch : ∀ (m p' j : Nat), (D.children p')[j]? = some m → (D1.children p')[j]? = some m := by
      intro m p' j hm
      have := (hw.lt_of_parent _ _ ((hw.mem_iff _ _).1 (List.mem_of_getElem? hm))).2
      rw [hcr.children p' this]; exact hm
    have hlt1 := hcr.next_lt
    rcases ha with ⟨k, occ, rfl, hk, hocc⟩ | ⟨rfl, hj⟩
    · obtain ⟨D2, e1, hput⟩ := hput pos occ k hk hocc
      rw [e1] at hs; cases hs
      refine ⟨hput.wf, by rw [Arena.upd_ne _ _ (Ne.symm hk)]; exact h0,
        ⟨fun m p' j hm => ?_, fun m hlt hm => .inl ?_, fun m hlt => .inl ?_⟩⟩
      · rcases hput.place hcr.wf hcr.self (hch m p' j hm) with h | ⟨rfl, h⟩
        · exact .inl h
        · exact .inr (.inr ⟨k, hsl, by rw [Arena.upd_same], h⟩)
      · exact hput.free hcr.wf (by rw [hcr.parent m hlt]; exact hm) (by omega)
      · rw [hput.data, hcr.data m hlt]
    · obtain ⟨D2, e1, happ⟩ := happ pos
      rw [e1] at hs; cases hs
      have hl := hlen D p pos hj
      refine ⟨happ.wf, h0, ⟨fun m p' j hm => .inl ?_, fun m hlt hm => .inl ?_, fun m hlt => .inl ?_⟩⟩
      · exact happ.place (by rw [hcr.children p hp]; exact hl) (hch m p' j hm)
      · exact happ.free hcr.wf (by omega) (by rw [hcr.parent m hlt]; exact hm) (by omega)
      · rw [happ.data, if_neg (by omega), hcr.data m hlt]
  | move q n q' p pos slot hq hn hc hm =>
    obtain ⟨D1, slots1, ht, h1, h2⟩ := hlaw.move D slots q n h0 hw hq hn hc
    obtain ⟨m1, m2, m3, m4, m5⟩ := hm D1 slots1 ht
    -- the state after taking the node out
    have hD1 : D1.WF ∧ slots1 0 = some root ∧ D1.parent n = none ∧ D.next ≤ D1.next ∧
        (∀ m p' j : Nat, (D.children p')[j]? = some m → m ≠ n → (D1.children p')[j]? = some m) ∧
        (∀ m, m < D.next → D.parent m = none → D1.parent m = none) ∧
        (∀ m, m < D.next → D1.data m = D.data m) := by
      rcases ht with ⟨hl, rfl, hrep⟩ | ⟨k, rfl, rfl, hsl⟩
      · rcases hc with ⟨_, p0, hp0⟩ | ⟨hl', _⟩
        · have hr := hrep p0 hp0
          refine ⟨hr.wf, h0, by rw [hr.parent, if_pos rfl], by rw [hr.next]; omega, ?_, ?_, ?_⟩
          · intro m p' j hm hne
            rw [hr.children]
            split
            · next ep => subst ep; rw [Arena.swapIn_getElem?, hm]; simp [hne]
            · exact hm
          · intro m hlt hm
            rw [hr.parent]
            split
            · rfl
            · rw [if_neg (by omega)]; exact hm
          · intro m hlt
            rw [hr.data, if_neg (by omega)]
        · omega
      · rcases hc with ⟨hl', _⟩ | ⟨_, hq0, hp0⟩
        · simp at hl'
        · refine ⟨hw, ?_, hp0, Nat.le_refl _, fun m p' j hm _ => hm, fun m _ hm => hm, fun m _ => rfl⟩
          have hk : k ≠ 0 := by rintro rfl; exact hq0 rfl
          rcases hsl with rfl | rfl
          · exact h0
          · rw [Arena.upd_ne _ _ (Ne.symm hk)]; exact h0
    obtain ⟨w1, w2, w3, w4, w5, w6, w7⟩ := hD1
    have htk : ∃ q0, (Patch.move q (q' ++ [pos]) slot).takes = some q0 ∧ Leads D slots q0 n :=
      ⟨q, rfl, navigate_ok_iff.1 hq⟩
    rcases m5 with ⟨k, occ, rfl, hk, hocc⟩ | ⟨rfl, hj⟩
    · obtain ⟨D2, e2, hput⟩ := h1 q' p pos occ k hk m1 m2 m3 m4 hocc
      rw [e2] at hs; cases hs
      refine ⟨hput.wf, by rw [Arena.upd_ne _ _ (Ne.symm hk)]; exact w2,
        ⟨fun m p' j hm => ?_, fun m hlt hm => ?_, fun m hlt => .inl ?_⟩⟩
      · by_cases e : m = n
        · subst e; exact .inr (.inl htk)
        · rcases hput.place w1 w3 (w5 m p' j hm e) with h | ⟨rfl, h⟩
          · exact .inl h
          · exact .inr (.inr ⟨k, rfl, by rw [Arena.upd_same], h⟩)
      · by_cases e : m = n
        · subst e; exact .inr htk
        · exact .inl (hput.free w1 (w6 m hlt hm) e)
      · rw [hput.data, w7 m hlt]
    · obtain ⟨D2, e2, happ⟩ := h2 q' p pos m1 m2 m3 m4
      rw [e2] at hs; cases hs
      have hl := hlen D1 p pos hj
      refine ⟨happ.wf, w2, ⟨fun m p' j hm => ?_, fun m hlt hm => ?_, fun m hlt => .inl ?_⟩⟩
      · by_cases e : m = n
        · subst e; exact .inr (.inl htk)
        · exact .inl (happ.place hl (w5 m p' j hm e))
      · by_cases e : m = n
        · subst e; exact .inr htk
        · exact .inl (happ.free w1 (by omega) (w6 m hlt hm) e)
      · rw [happ.data, if_neg (by omega), w7 m hlt]

theorem Trace.undisturbed {B : Arena TData} {ins : List Nat} {root : Nat} {step : StepFn}
    (hlaw : Lawful root step) {g : Nat → Nat} {J : Nat → Prop} (hJ : ∀ n, ¬ J n) {w w2 : World}
    {ops : List EditOp} {ps : List Patch} (h : Trace B ins step g J w ops ps w2) :
    w.D.WF → w.slots 0 = some root → ∀ i P, ps[i]? = some P → ∃ D slots D' slots',
      runPatches step w.D w.slots (ps.take i) = .ok (D, slots) ∧
      step D slots P = .ok (D', slots') ∧ Undisturbed D slots P D' slots' := by
  induction h with
  | nil => intro _ _ i P e; simp at e
  | @cons w w1 w2 op ops P ps hc hs hg hr ht ih =>
    intro hw h0 i P' e
    obtain ⟨hw1, h01, hu⟩ := hr.undisturbed hlaw hJ hw h0 hs
    cases i with
    | zero =>
      simp only [List.getElem?_cons_zero, Option.some.injEq] at e
      subst e
      exact ⟨_, _, _, _, rfl, hs, hu⟩
    | succ i =>
      simp only [List.getElem?_cons_succ] at e
      obtain ⟨D, s, D', s', e1, e2, e3⟩ := ih hw1 h01 i P' e
      refine ⟨D, s, D', s', ?_, e2, e3⟩
      simp only [List.take_succ_cons, runPatches, hs, bind, Except.bind, e1]

variable {H : Type} [DecidableEq H] {hashNode : HKind → Option Str → List H → H}
  {old new : Document} {ob nb : Nat}

/-- **C17**, partial (same restrictions as `C01_round_trip_opaque_partial`): at the moment a generated patch
other than a report about an opaque element is applied, it leaves
every node of the document at its place and unchanged, except the node the patch is about and the one
node that it displaces, which becomes the root of the slot named in the patch. -/
theorem C17_no_shifting_partial (parse : Str → Document) (h : Comparable old new ob nb)
    (hc : NoCollision hashNode (buildTree old ob) (diffable new) nb)
    (ho : OpaqueAgree hashNode old new ob nb)
    (hf : NoMoveBelowSelf hashNode old new ob nb ∨ NoInversion hashNode old new ob nb) :
    ∃ ps rs, diff hashNode old new = .ok (ps ++ rs) ∧ (∀ P ∈ rs, P.isReport = true) ∧
      ∀ i P, ps[i]? = some P → ∃ D slots D' slots',
      applyLoop parse (initSlots old).1.arena (initSlots old).2 (ps.take i) = .ok (D, slots) ∧
      applyPatch parse D slots P = .ok (D', slots') ∧ Undisturbed D slots P D' slots' := by
  obtain ⟨f, hd, hb⟩ := h.docRel_old
  have hso := h.old.sound.arena
  have hJ : ∀ n, ¬ Surplus (Plan.ctx (buildTree old ob) (diffable new)
      (diffMatching (oldTree hashNode old ob) (newTree hashNode new nb)) old.arena f) old.arena f n :=
    hb.not_surplus _
  obtain ⟨S0, ps, w, g, _, e, ht, _, _, _⟩ := h.run hc ho hf (lawful_native parse _) hd
    (slots := Arena.upd (fun _ => none) 0 (some ob)) (by simp)
  have hinit : (initSlots old).1.arena = old.arena ∧
      (initSlots old).2 = Arena.upd (fun _ => none) 0 (some ob) := by
    rw [h.initSlots_eq]; exact ⟨rfl, rfl⟩
  refine ⟨ps, _, e, reports_isReport S0, fun i P hP => ?_⟩
  obtain ⟨D, s, D', s', e1, e2, e3⟩ := ht.undisturbed (lawful_native parse ob) hJ hso.wf
    (by simp) i P hP
  refine ⟨D, s, D', s', ?_, e2, e3⟩
  rw [hinit.1, hinit.2, applyLoop_eq]
  exact e1


/-! ### Shifting when a node is moved below itself -/

/-- Some child loses its place though the patch neither takes it nor puts it into its slot. -/
def shifts (D : Arena NodeData) (slots : Slots) (P : Patch) (D' : Arena NodeData) (slots' : Slots) :
    Bool :=
  (List.range D.next).any fun p => (List.range (D.children p).length).any fun j =>
    match (D.children p)[j]? with
    | none => false
    | some n => decide ((D'.children p)[j]? ≠ some n) &&
      (match P.takes with
        | none => true
        | some q => match navigate D slots q with
          | .ok m => decide (m ≠ n)
          | .error _ => true) &&
      (match P.slot with
        | none => true
        | some k => decide (slots' k ≠ some n))

theorem not_undisturbed {D : Arena NodeData} {slots : Slots} {P : Patch} {D' : Arena NodeData}
    {slots' : Slots} (h : shifts D slots P D' slots' = true) : ¬ Undisturbed D slots P D' slots' := by
  intro hu
  unfold shifts at h
  simp only [List.any_eq_true] at h
  obtain ⟨p, _, j, _, h⟩ := h
  cases e : (D.children p)[j]? with
  | none => rw [e] at h; cases h
  | some n =>
    rw [e] at h
    simp only [Bool.and_eq_true, decide_eq_true_eq] at h
    obtain ⟨⟨h1, h2⟩, h3⟩ := h
    rcases hu.place n p j e with h | ⟨q, e1, h⟩ | ⟨k, e1, h, _⟩
    · exact h1 h
    · rw [e1] at h2
      simp only [navigate_ok_iff.2 h] at h2
      simp at h2
    · rw [e1] at h3
      simp [h] at h3

/-- Some patch of the list shifts a node. -/
def anyShift (D : Arena NodeData) (slots : Slots) : List Patch → Bool
  | [] => false
  | P :: ps => match applyPatch (fun _ => Document.new) D slots P with
    | .error _ => false
    | .ok (D', slots') => shifts D slots P D' slots' || anyShift D' slots' ps

theorem anyShift_spec {D : Arena NodeData} {slots : Slots} {ps : List Patch}
    (h : anyShift D slots ps = true) : ∃ (i : Nat) (P : Patch) (D1 : Arena NodeData) (slots1 : Slots)
      (D2 : Arena NodeData) (slots2 : Slots), ps[i]? = some P ∧
      applyLoop (fun _ => Document.new) D slots (ps.take i) = .ok (D1, slots1) ∧
      applyPatch (fun _ => Document.new) D1 slots1 P = .ok (D2, slots2) ∧
      ¬ Undisturbed D1 slots1 P D2 slots2 := by
  induction ps generalizing D slots with
  | nil => cases h
  | cons P ps ih =>
    unfold anyShift at h
    cases e : applyPatch (fun _ => Document.new) D slots P with
    | error x => rw [e] at h; cases h
    | ok r =>
      obtain ⟨D', slots'⟩ := r
      rw [e] at h
      simp only [Bool.or_eq_true] at h
      rcases h with h | h
      · exact ⟨0, P, D, slots, D', slots', rfl, rfl, e, not_undisturbed h⟩
      · obtain ⟨i, Q, D1, s1, D2, s2, e1, e2, e3, e4⟩ := ih h
        refine ⟨i + 1, Q, D1, s1, D2, s2, e1, ?_, e3, e4⟩
        simp only [List.take_succ_cons, applyLoop, e, bind, Except.bind, e2]

/-- **C17** is violated in general: for the documents of `C01_violated` one of the generated patches
shifts a node that it neither takes nor puts into its slot. -/
theorem C17_violated : ∃ cs ds ps, Html.plainL cs = true ∧ Html.plainL ds = true ∧
    diff Shape.node (.ofForest cs) (.ofForest ds) = .ok ps ∧
    ∃ (i : Nat) (P : Patch) (D1 : Arena NodeData) (slots1 : Slots)
      (D2 : Arena NodeData) (slots2 : Slots), ps[i]? = some P ∧
      applyLoop (fun _ => Document.new) (initSlots (.ofForest cs)).1.arena
        (initSlots (.ofForest cs)).2 (ps.take i) = .ok (D1, slots1) ∧
      applyPatch (fun _ => Document.new) D1 slots1 P = .ok (D2, slots2) ∧
      ¬ Undisturbed D1 slots1 P D2 slots2 := by
  have h : (match diff Shape.node (.ofForest bad1) (.ofForest bad2) with
      | .ok ps => anyShift (initSlots (.ofForest bad1)).1.arena (initSlots (.ofForest bad1)).2 ps
      | .error _ => false) = true := by decide +kernel
  cases e : diff Shape.node (.ofForest bad1) (.ofForest bad2) with
  | error x => rw [e] at h; cases h
  | ok ps =>
    rw [e] at h
    exact ⟨bad1, bad2, ps, by decide +kernel, by decide +kernel, e, anyShift_spec h⟩

/-- The hypotheses of `C17_no_shifting_partial` hold for `ex1`, `ex2`, whose patch list has Inserts,
Moves and Removes, some of which displace a node. -/
example : Comparable (.ofForest ex1) (.ofForest ex2) 2 2 ∧
    NoCollision Shape.node (buildTree (.ofForest ex1) 2) (diffable (.ofForest ex2)) 2 ∧
    OpaqueAgree Shape.node (.ofForest ex1) (.ofForest ex2) 2 2 ∧
    NoMoveBelowSelf Shape.node (.ofForest ex1) (.ofForest ex2) 2 2 ∧
    (match diff Shape.node (.ofForest ex1) (.ofForest ex2) with
      | .ok ps => decide ((ps.filter fun P => P.takes.isSome).length ≥ 2 ∧
          (ps.filter fun P => P.slot.isSome).length ≥ 2)
      | .error _ => false) = true :=
  ⟨comparable_ofForest (by decide +kernel) (by decide +kernel), noCollision_shape _ _ _,
    (opaqueFixed_ofForest (by decide +kernel) (by decide +kernel)).agree,
    noMoveBelowSelf_of_movesSafe (by decide +kernel), by decide +kernel⟩

end Hotmeal
