import Verif.Lemmas.Budget

set_option autoImplicit false
set_option linter.unusedSectionVars false

/-!
# The tokens at the start, and the conversion of a whole script
-/

namespace Hotmeal

variable {H : Type} [DecidableEq H]

theorem convertLoop_split {B : Arena TData} {ins : List Nat} : ∀ (l : List EditOp) {r : List EditOp} {C C' : Conv}
    {ps : List Patch}, convertLoop B ins C (l ++ r) = .ok (C', ps) →
    ∃ C1 p1 p2, convertLoop B ins C l = .ok (C1, p1) ∧ convertLoop B ins C1 r = .ok (C', p2) ∧ ps = p1 ++ p2
  | [], r, C, C', ps, e => ⟨C, [], ps, rfl, e, rfl⟩
  | op :: l, r, C, C', ps, e => by
    obtain ⟨⟨C1, qs⟩, e1, e⟩ := res_bind e
    obtain ⟨⟨C2, rs⟩, e2, e⟩ := res_bind e
    cases e
    obtain ⟨C3, p1, p2, h1, h2, h3⟩ := convertLoop_split l e2
    cases h3
    exact ⟨C3, qs ++ p1, p2, convertLoop_cons e1 h1, h2, by simp⟩

theorem count_tokens {α : Type} {f h : α → Nat} : ∀ (l : List α) {x : α}, x ∈ l →
    f x ≤ (l.flatMap fun x => List.replicate (f x) (h x)).count (h x)
  | y :: l, x, hx => by
    rw [List.flatMap_cons, List.count_append]
    rcases List.mem_cons.1 hx with rfl | hx
    · rw [List.count_replicate_self]; exact Nat.le_add_right _ _
    · exact Nat.le_trans (count_tokens l hx) (Nat.le_add_left _ _)

theorem length_tokens {α : Type} {f h : α → Nat} (l : List α) :
    (l.flatMap fun x => List.replicate (f x) (h x)).length = (l.map f).sum := by
  induction l with
  | nil => rfl
  | cons x l ih => rw [List.flatMap_cons, List.length_append, List.length_replicate, ih, List.map_cons, List.sum_cons]

theorem length_children {B : Arena TData} (l : List Nat) :
    (l.flatMap B.children).length = (l.map fun b => (B.children b).length).sum := by
  induction l with
  | nil => rfl
  | cons x l ih => rw [List.flatMap_cons, List.length_append, ih, List.map_cons, List.sum_cons]

/-- Different nodes have different children. -/
theorem Arena.WF.sum_children {B : Arena TData} (hB : B.WF) {l : List Nat} (hl : l.Nodup) :
    (l.map fun b => (B.children b).length).sum ≤ B.next := by
  rw [← length_children]
  have : (l.flatMap B.children).length ≤ (List.range B.next).length := by
    refine nodup_length_le ?_ ?_
    · refine nodup_flatMap_of_inj hl (fun x _ => hB.nodup x) ?_
      intro a _ b _ x ha hb
      have h1 := (hB.mem_iff _ _).1 ha
      rw [(hB.mem_iff _ _).1 hb] at h1
      injection h1 with h1
      exact h1.symm
    · intro c hc
      obtain ⟨b, _, hc⟩ := List.mem_flatMap.1 hc
      exact List.mem_range.2 (hB.lt_of_parent _ _ ((hB.mem_iff _ _).1 hc)).1
  rwa [List.length_range] at this

/-- A list of nodes that is not longer than `m`, and whose nodes have at most `m` children together. -/
structure FewNodes (B : Arena TData) (D : List Nat) (m : Nat) : Prop where
  nodup : D.Nodup
  len : D.length ≤ m
  sum : ∀ l : List Nat, l.Nodup → (∀ x ∈ l, x ∈ D) → (l.map fun b => (B.children b).length).sum ≤ m

/-- All nodes. -/
theorem Arena.WF.few_all {B : Arena TData} (hB : B.WF) : FewNodes B (List.range B.next) B.next :=
  ⟨List.nodup_range, by simp, fun _ hl _ => hB.sum_children hl⟩

/-- The nodes of a subtree. -/
theorem Arena.WF.few_below {B : Arena TData} (hB : B.WF) (nb : Nat) :
    FewNodes B (B.descendants nb) (B.descendants nb).length := by
  refine ⟨hB.descendants_nodup nb, Nat.le_refl _, fun l hl hsub => ?_⟩
  rw [← length_children]
  refine nodup_length_le ?_ ?_
  · refine nodup_flatMap_of_inj hl (fun x _ => hB.nodup x) ?_
    intro a _ b _ x ha hb
    have h1 := (hB.mem_iff _ _).1 ha
    rw [(hB.mem_iff _ _).1 hb] at h1
    injection h1 with h1
    exact h1.symm
  · intro c hc
    obtain ⟨b, hb, hc⟩ := List.mem_flatMap.1 hc
    exact (hB.mem_descendants _ _).2 (.step ((hB.mem_iff _ _).1 hc) ((hB.mem_descendants _ _).1 (hsub b hb)))

/-- The matching of `diff`: new nodes are matched once, but the root may be matched twice. -/
theorem diffMatching_snd {hashNode : HKind → Option Str → List H → H} {A B : Arena TData} (hA : A.WF) (hB : B.WF)
    {ra rb : Nat} : ∃ M P0, diffMatching (DiffTree.ofArena hashNode A ra) (DiffTree.ofArena hashNode B rb) = M ∧
      (P0.map Prod.snd).Nodup ∧ (M.pairs = P0 ∨ M.pairs = P0 ++ [(ra, rb)]) ∧
      ∀ a b, (a, b) ∈ M.pairs → M.containsB b = true := by
  have hg := (closed_anc (hashNode := hashNode) hA hB ra rb).computeMatching Config.diff
  refine ⟨_, (computeMatching (DiffTree.ofArena hashNode A ra) (DiffTree.ofArena hashNode B rb) Config.diff).pairs,
    rfl, ?_, ?_, ?_⟩
  · rw [List.Nodup, List.pairwise_map]
    refine hg.nodup.imp_of_mem ?_
    rintro ⟨a, b⟩ ⟨a', b'⟩ h1 h2 hne rfl
    have h1 := (hg.getA _ _).2 h1
    have h2 := (hg.getA _ _).2 h2
    rw [h1] at h2; injection h2 with h2
    exact hne (by rw [h2])
  · unfold diffMatching forceRoots
    split
    · exact .inr rfl
    · exact .inl rfl
  · have hcont : ∀ a b, (a, b) ∈ (computeMatching (DiffTree.ofArena hashNode A ra)
        (DiffTree.ofArena hashNode B rb) Config.diff).pairs →
        (computeMatching (DiffTree.ofArena hashNode A ra) (DiffTree.ofArena hashNode B rb) Config.diff).containsB b = true := by
      intro a b hab
      apply Classical.byContradiction
      intro hc
      have := Matching.containsB_false.1 (Bool.eq_false_iff.2 hc)
      rw [(hg.getA a b).2 hab] at this; cases this
    unfold diffMatching forceRoots
    split
    · intro a b hab
      have hab' : (a, b) ∈ _ ++ [_] := hab
      unfold Matching.containsB Matching.add
      simp only [Arena.upd_apply]
      split
      · rfl
      · next hne =>
        rcases List.mem_append.1 hab' with h | h
        · exact hcont a b h
        · have e := List.mem_singleton.1 h
          cases e; exact absurd rfl hne
    · exact hcont

theorem initBToShadow_none {M : Matching} {b : Nat} (h : initBToShadow M b = none) : ∀ p ∈ M.pairs, p.2 ≠ b := by
  have key : ∀ (ps : List (Nat × Nat)) (f : Nat → Option Nat),
      ps.foldl (fun f p => Arena.upd f p.2 (some p.1)) f b = none → (∀ p ∈ ps, p.2 ≠ b) ∧ f b = none := by
    intro ps
    induction ps with
    | nil => intro f h; exact ⟨by simp, h⟩
    | cons p ps ih =>
      intro f h
      obtain ⟨h1, h2⟩ := ih _ h
      simp only [Arena.upd_apply] at h2
      split at h2
      · cases h2
      · next hne =>
        refine ⟨?_, h2⟩
        intro q hq
        rcases List.mem_cons.1 hq with rfl | hq
        · exact Ne.symm hne
        · exact h1 q hq
  exact (key _ _ h).1

/-- The tokens at the start: one for every child in the old tree, owned by the parent; one for every child in the
new tree, owned by the partner of the parent, or by the root if there is none. -/
theorem Bud.init {A B : Arena TData} {D : List Nat} {m : Nat} {M : Matching} {ins mv : List Nat} {S : Shadow} {P0 : List (Nat × Nat)} {nb : Nat}
    (hA : A.WF) (hB : B.WF) (hpos : 0 < A.next) (hS : ShadowInit A S) (hM : ∀ a b, (a, b) ∈ M.pairs → a < A.next)
    (hP0 : (P0.map Prod.snd).Nodup) (hP : M.pairs = P0 ∨ M.pairs = P0 ++ [(0, nb)])
    (hins : ins.Nodup) (hdis : ∀ p ∈ M.pairs, p.2 ∉ ins) (hmv : ∀ a ∈ mv, a < A.next) (hD : FewNodes B D m) (hnbD : nb ∈ D)
    (hPD : ∀ p ∈ M.pairs, p.2 ∈ D) (hiD : ∀ b ∈ ins, b ∈ D) :
    ∃ L g, Bud A B D M (A.next + 2 * m) L g ins mv S (initBToShadow M) := by
  let Z := D.filter fun b => decide (b ∉ M.pairs.map Prod.snd) && decide (b ∉ ins)
  let L1 := (List.range A.next).flatMap fun a => List.replicate (A.children a).length a
  let L2 := M.pairs.flatMap fun p => List.replicate (B.children p.2).length p.1
  let L3 := Z.flatMap fun b => List.replicate (B.children b).length 0
  refine ⟨L1 ++ L2 ++ L3, fun n => if n ≤ A.next then 0 else 1, ⟨hS.shape, ?_, ?_⟩, hS.super, ?_, ?_, ?_, ?_, ?_, ?_⟩
  · intro n hn
    rw [hS.super] at hn
    rw [hS.children]
    split
    · next e =>
      subst e
      rw [if_neg (by omega)]
      exact Nat.le_add_left _ _
    · by_cases h : n < A.next
      · have := count_tokens (f := fun a => (A.children a).length) (h := fun a => a) (List.range A.next)
          (List.mem_range.2 h)
        simp only [List.count_append]
        exact Nat.le_trans this (by simp only [L1]; omega)
      · cases e : A.children n with
        | nil => exact Nat.zero_le _
        | cons c cs => exact absurd (hA.lt_of_parent c n ((hA.mem_iff c n).1 (by rw [e]; simp))).2 h
  · intro m hm
    rw [hS.super]
    have hm' : S.arena.parent m = some S.superRoot := hm
    rw [hS.parent, hS.super] at hm'
    split at hm'
    · injection hm' with hm'; omega
    · split at hm'
      · omega
      · have := (hA.lt_of_parent _ _ hm').2; omega
  · intro n hn
    rw [if_neg (by omega)]; exact Nat.le_refl _
  · intro b hb hni
    cases e : initBToShadow M b with
    | some a =>
      have hab := initBToShadow_mem e
      have := count_tokens (f := fun p : Nat × Nat => (B.children p.2).length) (h := fun p => p.1) M.pairs hab
      simp only [Option.getD_some, List.count_append]
      exact Nat.le_trans this (by simp only [L2]; omega)
    | none =>
      have hz : b ∈ Z := by
        simp only [Z, List.mem_filter, Bool.and_eq_true, decide_eq_true_eq]
        refine ⟨hb, fun hm => ?_, hni⟩
        obtain ⟨p, hp, rfl⟩ := List.mem_map.1 hm
        exact initBToShadow_none e p hp rfl
      have := count_tokens (f := fun b => (B.children b).length) (h := fun _ => 0) Z hz
      simp only [Option.getD_none, List.count_append]
      exact Nat.le_trans this (by simp only [L3]; omega)
  · intro a b hab
    have := count_tokens (f := fun p : Nat × Nat => (B.children p.2).length) (h := fun p => p.1) M.pairs hab
    simp only [List.count_append]
    exact Nat.le_trans this (by simp only [L2]; omega)
  · intro a ha
    rw [if_pos (Nat.le_of_lt (hmv a ha))]
  · intro n
    split <;> omega
  · have e1 : L1.length ≤ A.next := by
      simp only [L1]
      rw [length_tokens (f := fun a => (A.children a).length) (h := fun a => a)]
      exact hA.sum_children List.nodup_range
    have e2 : L2.length = (P0.map fun p => (B.children p.2).length).sum ∨
        L2.length = (P0.map fun p => (B.children p.2).length).sum + (B.children nb).length := by
      simp only [L2]
      rw [length_tokens (f := fun p : Nat × Nat => (B.children p.2).length) (h := fun p => p.1)]
      rcases hP with e | e <;> rw [e]
      · exact .inl rfl
      · right; simp
    have e3 : L3.length = (Z.map fun b => (B.children b).length).sum :=
      length_tokens (f := fun b => (B.children b).length) (h := fun _ => 0) Z
    have hsub : ∀ p ∈ P0, p ∈ M.pairs := by
      intro p hp
      rcases hP with e | e <;> rw [e]
      · exact hp
      · exact List.mem_append.2 (.inl hp)
    have hall : (P0.map Prod.snd ++ (Z ++ ins)).Nodup := by
      rw [List.nodup_append, List.nodup_append]
      refine ⟨hP0, ⟨hD.nodup.filter _, hins, ?_⟩, ?_⟩
      · intro x hx y hy exy
        subst exy
        simp only [Z, List.mem_filter, Bool.and_eq_true, decide_eq_true_eq] at hx
        exact hx.2.2 hy
      · intro x hx y hy exy
        subst exy
        obtain ⟨p, hp, rfl⟩ := List.mem_map.1 hx
        rcases List.mem_append.1 hy with hy | hy
        · simp only [Z, List.mem_filter, Bool.and_eq_true, decide_eq_true_eq] at hy
          exact hy.2.1 (List.mem_map.2 ⟨p, hsub p hp, rfl⟩)
        · exact hdis p (hsub p hp) hy
    have hsum := hD.sum _ hall (by
      intro x hx
      rcases List.mem_append.1 hx with hx | hx
      · obtain ⟨p, hp, rfl⟩ := List.mem_map.1 hx
        exact hPD p (hsub p hp)
      · rcases List.mem_append.1 hx with hx | hx
        · exact (List.mem_filter.1 hx).1
        · exact hiD x hx)
    simp only [List.map_append, List.sum_append, List.map_map] at hsum
    have hsum1 : (P0.map fun p => (B.children p.2).length).sum =
      (P0.map ((fun b => (B.children b).length) ∘ Prod.snd)).sum := rfl
    have hnb : (B.children nb).length ≤ m := by
      have := hD.sum [nb] (by simp) (by simpa using hnbD)
      simpa using this
    rw [length_children]
    simp only [List.length_append]
    rcases e2 with e2 | e2 <;> omega

/-- How many operations of a script put a node somewhere. -/
def placings (ops : List EditOp) : Nat := (insertedNodes ops).length + (movedNodes ops).length

/-- An operation uses at most one slot. -/
theorem convertLoop_slots {B : Arena TData} {ins : List Nat} : ∀ (ops : List EditOp) {C C' : Conv} {ps : List Patch},
    convertLoop B ins C ops = .ok (C', ps) → C'.shadow.nextSlot ≤ C.shadow.nextSlot + placings ops
  | [], C, C', ps, e => by cases e; exact Nat.le_add_right _ _
  | op :: ops, C, C', ps, e => by
    obtain ⟨⟨C1, qs⟩, e1, e⟩ := res_bind e
    obtain ⟨⟨C2, rs⟩, e2, e⟩ := res_bind e
    cases e
    have ih := convertLoop_slots ops e2
    cases op with
    | updateProps a b c => cases e1; exact ih
    | setText a b t => cases e1; exact ih
    | delete a =>
      simp only [convertOp] at e1
      obtain ⟨S, h1, e1⟩ := res_bind e1
      cases e1
      have h1 := Shadow.detachWithPlaceholder_next h1
      have h2 : placings (.delete a :: ops) = placings ops := rfl
      simp only at ih
      omega
    | insert b pb pos kind =>
      simp only [convertOp] at e1
      obtain ⟨sp, -, e1⟩ := res_bind e1
      obtain ⟨⟨S, slot⟩, h1, e1⟩ := res_bind e1
      cases e1
      have h2 : placings (.insert b pb pos kind :: ops) = placings ops + 1 := by
        show ((insertedNodes ops).length + 1) + _ = _
        unfold placings; rw [Nat.add_right_comm]; rfl
      have h3 : S.nextSlot ≤ C.shadow.nextSlot + 1 := by
        rcases Shadow.insertAtPosition_next h1 with ⟨_, e⟩ | ⟨_, e⟩ <;> (simp only at e; omega)
      simp only at ih
      omega
    | move a b pb pos =>
      have h2 : placings (.move a b pb pos :: ops) = placings ops + 1 := by
        show (insertedNodes ops).length + ((movedNodes ops).length + 1) = _
        rfl
      simp only [convertOp] at e1
      obtain ⟨sp, -, e1⟩ := res_bind e1
      have key : ∀ {S S' : Shadow} {slot : Option Nat}, S.nextSlot = C.shadow.nextSlot →
          S.moveToPosition a sp pos = .ok (S', slot) → S'.nextSlot ≤ C.shadow.nextSlot + 1 := by
        intro S S' slot h1 h2
        rcases Shadow.moveToPosition_next h2 with ⟨_, e⟩ | ⟨_, e⟩ <;> omega
      split at e1
      · obtain ⟨⟨S, pre⟩, h1, e1⟩ := res_bind e1
        obtain ⟨⟨S', slot⟩, h3, e1⟩ := res_bind e1
        cases e1
        have := key (reparentChildren_next h1).1 h3
        simp only at ih
        omega
      · obtain ⟨⟨S, pre⟩, h1, e1⟩ := res_bind e1
        cases h1
        obtain ⟨⟨S', slot⟩, h3, e1⟩ := res_bind e1
        cases e1
        have := key rfl h3
        simp only at ih
        omega

theorem placings_script {hashNode : HKind → Option Str → List H → H} {A B : Arena TData} {nb : Nat} {M : Matching}
    {D : List Nat} {m : Nat} (hA : A.WF) (hB : B.WF) (hM : ∀ a b, (a, b) ∈ M.pairs → a < A.next)
    (hnd : (M.pairs.map Prod.fst).Nodup) (hD : FewNodes B D m)
    (hiD : ∀ b pb pos k, .insert b pb pos k ∈ scriptOf hashNode A B 0 nb M → b ∈ D ∧ pb ∈ D) :
    (movedNodes (scriptOf hashNode A B 0 nb M)).length ≤ A.next ∧
    placings (scriptOf hashNode A B 0 nb M) ≤ A.next + m := by
  have h1 : (movedNodes (scriptOf hashNode A B 0 nb M)).length ≤ A.next := by
    have : (movedNodes (scriptOf hashNode A B 0 nb M)).length ≤ (List.range A.next).length := by
      refine nodup_length_le (C12_moved_once M hnd) ?_
      intro a ha
      obtain ⟨op, hop, e⟩ := List.mem_filterMap.1 ha
      cases op with
      | move a' b pb pos =>
        cases e
        exact List.mem_range.2 (hM _ _ ((C12_moves_exactly_when_needed hA hB M a b pb pos).1 hop).1)
      | _ => cases e
    rwa [List.length_range] at this
  have h2 : (insertedNodes (scriptOf hashNode A B 0 nb M)).length ≤ m := by
    have : (insertedNodes (scriptOf hashNode A B 0 nb M)).length ≤ D.length := by
      refine nodup_length_le (C10_inserted_once_parents_first hB M).1 ?_
      intro b hb
      obtain ⟨op, hop, e⟩ := List.mem_filterMap.1 hb
      cases op with
      | insert b' pb pos kind =>
        cases e
        exact (hiD _ _ _ _ hop).1
      | _ => cases e
    exact Nat.le_trans this hD.len
  exact ⟨h1, by unfold placings; omega⟩

/-- The conversion of the script of `diff`: all numbers in paths are below `N`, and there are at most quadratically
many Moves. -/
theorem script_budget {hashNode : HKind → Option Str → List H → H} {A B : Arena TData} {nb : Nat} {ins : List Nat}
    {S0 : Shadow} {C : Conv} {ps : List Patch} {N : Nat} {D : List Nat} {m : Nat} (hA : A.WF) (hB : B.WF) (hpos : 0 < A.next)
    (h0 : A.parent 0 = none) (hreach : ∀ n, n < A.next → A.Anc 0 n) (hS : ShadowInit A S0)
    (hD : FewNodes B D m) (hbD : ∀ b, B.Anc nb b → b ∈ D)
    (hiD : ∀ b pb pos k, .insert b pb pos k ∈ scriptOf hashNode A B 0 nb (diffMatching (DiffTree.ofArena hashNode A 0)
      (DiffTree.ofArena hashNode B nb)) → b ∈ D ∧ pb ∈ D)
    (hmD : ∀ a b pb pos, .move a b pb pos ∈ scriptOf hashNode A B 0 nb (diffMatching (DiffTree.ofArena hashNode A 0)
      (DiffTree.ofArena hashNode B nb)) → pb ∈ D)
    (hN : 2 * (A.next + 2 * m) ≤ N) (hs : C.shadow.nextSlot ≤ N)
    (e : convertLoop B ins ⟨S0, initBToShadow (diffMatching (DiffTree.ofArena hashNode A 0) (DiffTree.ofArena hashNode B nb))⟩
      (scriptOf hashNode A B 0 nb (diffMatching (DiffTree.ofArena hashNode A 0) (DiffTree.ofArena hashNode B nb))) =
        .ok (C, ps)) :
    (∀ P ∈ ps, P.Below N) ∧ countSort .move ps ≤ A.next * (A.next + 2 * m + 1) ∧ ∀ n, ∀ i ∈ S0.computePath n, i < N := by
  obtain ⟨M, hMe, hnd, hcA, hanc, -⟩ := diffMatching_facts (hashNode := hashNode) hA hB (ra := 0) (rb := nb)
  obtain ⟨M', P0, hMe', hP0, hP, hcB⟩ := diffMatching_snd (hashNode := hashNode) hA hB (ra := 0) (rb := nb)
  rw [hMe] at hMe' e hiD hmD
  subst hMe'
  have hM : ∀ a b, (a, b) ∈ M.pairs → a < A.next := by
    intro a b hab
    rcases (hanc a b hab).1.cases' with e | ⟨q, hq, _⟩
    · rw [← e]; exact hpos
    · exact (hA.lt_of_parent _ _ hq).1
  obtain ⟨hi1, hi2⟩ := C10_inserted_once_parents_first (hashNode := hashNode) (A := A) (ra := 0) (rb := nb) hB M
  have hat : ∀ b pb pos, B.parent b = some pb → AtIndex B b pos → pos < (B.children pb).length := by
    intro b pb pos hp hat
    unfold AtIndex at hat
    rw [hp] at hat
    exact (List.getElem?_eq_some_iff.1 hat).1
  -- the phases
  have e0 : convertLoop B ins ⟨S0, initBToShadow M⟩ (updateOps (DiffTree.ofArena hashNode A 0)
      (DiffTree.ofArena hashNode B nb) M (opaqueDescendants (DiffTree.ofArena hashNode A 0))
      (opaqueDescendants (DiffTree.ofArena hashNode B nb)) ++
      (insertOps (DiffTree.ofArena hashNode B nb) M (opaqueDescendants (DiffTree.ofArena hashNode B nb)) ++
      (moveOps (DiffTree.ofArena hashNode A 0) (DiffTree.ofArena hashNode B nb) M
        (opaqueDescendants (DiffTree.ofArena hashNode A 0)) (opaqueDescendants (DiffTree.ofArena hashNode B nb)) ++
      deleteOps (DiffTree.ofArena hashNode A 0) M (opaqueDescendants (DiffTree.ofArena hashNode A 0))))) = .ok (C, ps) := by
    rw [← e]
    show _ = convertLoop B ins _ (generateEditScript _ _ M)
    unfold generateEditScript
    simp only [List.append_assoc]
  have hscr : scriptOf hashNode A B 0 nb M = updateOps (DiffTree.ofArena hashNode A 0)
      (DiffTree.ofArena hashNode B nb) M (opaqueDescendants (DiffTree.ofArena hashNode A 0))
      (opaqueDescendants (DiffTree.ofArena hashNode B nb)) ++
      (insertOps (DiffTree.ofArena hashNode B nb) M (opaqueDescendants (DiffTree.ofArena hashNode B nb)) ++
      (moveOps (DiffTree.ofArena hashNode A 0) (DiffTree.ofArena hashNode B nb) M
        (opaqueDescendants (DiffTree.ofArena hashNode A 0)) (opaqueDescendants (DiffTree.ofArena hashNode B nb)) ++
      deleteOps (DiffTree.ofArena hashNode A 0) M (opaqueDescendants (DiffTree.ofArena hashNode A 0)))) := by
    show generateEditScript _ _ M = _
    unfold generateEditScript
    simp only [List.append_assoc]
  obtain ⟨hpl, -⟩ := placings_script (hashNode := hashNode) (nb := nb) hA hB hM hnd hD hiD
  have hmoved := C12_moved_once (hashNode := hashNode) (A := A) (B := B) (ra := 0) (rb := nb) M hnd
  have hinsF := fun b pb pos k => (C10_inserts_are_the_unmatched (hashNode := hashNode) (A := A) (ra := 0) (rb := nb) hB M b pb pos k).1
  have hmovF := fun a b pb pos => (C12_moves_exactly_when_needed (hashNode := hashNode) (ra := 0) (rb := nb) hA hB M a b pb pos).1
  rw [hscr] at hi1 hi2 hpl hmoved hinsF hmovF hiD hmD
  have hupd : ∀ op ∈ updateOps (DiffTree.ofArena hashNode A 0) (DiffTree.ofArena hashNode B nb) M
      (opaqueDescendants (DiffTree.ofArena hashNode A 0)) (opaqueDescendants (DiffTree.ofArena hashNode B nb)),
      op.phase = 0 := fun op h => phase_update h
  have hinsP : ∀ op ∈ insertOps (DiffTree.ofArena hashNode B nb) M (opaqueDescendants (DiffTree.ofArena hashNode B nb)),
      ∃ b pb pos kind, op = .insert b pb pos kind := by
    intro op h
    obtain ⟨b, pb, _, _, _, _, rfl⟩ := mem_insertOps.1 h
    exact ⟨_, _, _, _, rfl⟩
  have hmovP : ∀ op ∈ moveOps (DiffTree.ofArena hashNode A 0) (DiffTree.ofArena hashNode B nb) M
      (opaqueDescendants (DiffTree.ofArena hashNode A 0)) (opaqueDescendants (DiffTree.ofArena hashNode B nb)),
      ∃ a b pb pos, op = .move a b pb pos := by
    intro op h
    obtain ⟨a, b, pa, pb, _, _, _, _, _, _, rfl⟩ := mem_moveOps.1 h
    exact ⟨_, _, _, _, rfl⟩
  have hdelP : ∀ op ∈ deleteOps (DiffTree.ofArena hashNode A 0) M (opaqueDescendants (DiffTree.ofArena hashNode A 0)),
      ∃ a, op = .delete a ∧ a < A.next := by
    intro op h
    obtain ⟨a, ha, _, _, rfl⟩ := mem_deleteOps.1 h
    refine ⟨a, rfl, ?_⟩
    have ha : a ∈ A.postOrder 0 := ha
    rw [hA.postOrder_eq hpos] at ha
    rcases ((hA.mem_post _ _).1 ha).cases' with e | ⟨q, hq, _⟩
    · rw [← e]; exact hpos
    · exact (hA.lt_of_parent _ _ hq).1
  revert e0 hi1 hi2 hpl hmoved hinsF hmovF hiD hmD hupd hinsP hmovP hdelP
  generalize updateOps (DiffTree.ofArena hashNode A 0) (DiffTree.ofArena hashNode B nb) M
    (opaqueDescendants (DiffTree.ofArena hashNode A 0)) (opaqueDescendants (DiffTree.ofArena hashNode B nb)) = ou
  generalize insertOps (DiffTree.ofArena hashNode B nb) M (opaqueDescendants (DiffTree.ofArena hashNode B nb)) = oi
  generalize moveOps (DiffTree.ofArena hashNode A 0) (DiffTree.ofArena hashNode B nb) M
    (opaqueDescendants (DiffTree.ofArena hashNode A 0)) (opaqueDescendants (DiffTree.ofArena hashNode B nb)) = om
  generalize deleteOps (DiffTree.ofArena hashNode A 0) M (opaqueDescendants (DiffTree.ofArena hashNode A 0)) = od
  intro hmD hiD hi1 hi2 e0 hpl hmoved hinsF hmovF hupd hinsP hmovP hdelP
  have nu : ∀ op ∈ ou, op.phase ≠ 1 ∧ op.phase ≠ 2 := fun op h => by rw [hupd op h]; decide
  have ni : ∀ op ∈ oi, op.phase ≠ 2 := fun op h => by
    obtain ⟨b, pb, pos, kind, rfl⟩ := hinsP op h; simp [EditOp.phase]
  have nm : ∀ op ∈ om, op.phase ≠ 1 := fun op h => by
    obtain ⟨a, b, pb, pos, rfl⟩ := hmovP op h; simp [EditOp.phase]
  have nd : ∀ op ∈ od, op.phase ≠ 1 ∧ op.phase ≠ 2 := fun op h => by
    obtain ⟨a, rfl, _⟩ := hdelP op h; simp [EditOp.phase]
  have ei : insertedNodes (ou ++ (oi ++ (om ++ od))) = insertedNodes oi := by
    rw [insertedNodes_append, insertedNodes_append, insertedNodes_append, insertedNodes_nil fun op h => (nu op h).1,
      insertedNodes_nil nm, insertedNodes_nil fun op h => (nd op h).1, List.nil_append, List.append_nil, List.append_nil]
  have em : movedNodes (ou ++ (oi ++ (om ++ od))) = movedNodes om := by
    rw [movedNodes_append, movedNodes_append, movedNodes_append, movedNodes_nil fun op h => (nu op h).2,
      movedNodes_nil ni, movedNodes_nil fun op h => (nd op h).2, List.nil_append, List.nil_append, List.append_nil]
  rw [ei] at hi1 hi2
  rw [em] at hpl hmoved
  obtain ⟨C1, p1, r1, k1, e1, rfl⟩ := convertLoop_split ou e0
  obtain ⟨⟨S2, bts2⟩, p2, r2, k2, e2, rfl⟩ := convertLoop_split oi e1
  obtain ⟨⟨S3, bts3⟩, p3, p4, k3, k4, rfl⟩ := convertLoop_split om e2
  have s3 : S3.nextSlot ≤ N := by
    obtain ⟨k, hk, _⟩ := convertLoop_next k4
    simp only at hk; omega
  have s2 : S2.nextSlot ≤ N := by
    obtain ⟨k, hk, _⟩ := convertLoop_next k3
    simp only at hk; omega
  have s1 : C1.shadow.nextSlot ≤ N := by
    obtain ⟨k, hk, _⟩ := convertLoop_next k2
    simp only at hk; omega
  have s0 : S0.nextSlot ≤ N := by
    obtain ⟨k, hk, _⟩ := convertLoop_next k1
    simp only at hk; omega
  obtain ⟨L, g, hb⟩ := Bud.init (ins := insertedNodes oi) (mv := movedNodes om) hA hB hpos hS hM hP0 hP hi1 (by
      intro p hp hm
      obtain ⟨op, hop, e⟩ := List.mem_filterMap.1 hm
      obtain ⟨b, pb, pos, kind, rfl⟩ := hinsP op hop
      cases e
      have := hcB p.1 p.2 hp
      rw [Matching.containsB_false.2 (hinsF p.2 pb pos kind (by simp [hop])).2.1] at this
      cases this) (by
      intro a ha
      obtain ⟨op, hop, e⟩ := List.mem_filterMap.1 ha
      obtain ⟨a', b, pb, pos, rfl⟩ := hmovP op hop
      cases e
      exact hM _ _ (hmovF a b pb pos (by simp [hop])).1) hD (hbD nb .refl) (fun p hp => hbD p.2 (hanc p.1 p.2 hp).2) (by
      intro b hb
      obtain ⟨op, hop, e⟩ := List.mem_filterMap.1 hb
      obtain ⟨b', pb, pos, kind, rfl⟩ := hinsP op hop
      cases e
      exact (hiD b pb pos kind (by simp [hop])).1)
  have h0N : 0 < N := by omega
  obtain ⟨rfl, q1, c1⟩ := Shadow.Num.updates (fun n => Nat.le_trans (hb.bound n) hN) h0N ou hupd hb.num s0 k1
  have hc0 := ConvOk.init hA hpos h0 hreach hM hS
  obtain ⟨⟨L2, hb2⟩, hc2, q2, c2⟩ := Bud.inserts hpos hN oi (by
      intro op hop
      obtain ⟨b, pb, pos, kind, rfl⟩ := hinsP op hop
      have := hinsF b pb pos kind (by simp [hop])
      exact ⟨b, pb, pos, kind, rfl, (hiD b pb pos kind (by simp [hop])).2, hat b pb pos this.2.2.2.1 this.2.2.2.2.1⟩) (by
      intro l1 b l2 pb pos kind eo hm
      have hp := (hinsF b pb pos kind (by simp [eo])).2.2.2.1
      have hsplit : insertedNodes oi = insertedNodes l1 ++ b :: insertedNodes l2 := by
        rw [eo, insertedNodes_append]; rfl
      have hin : pb ∈ insertedNodes oi := by
        rw [hsplit]; exact List.mem_append.2 (.inr hm)
      have h1 := hi2 _ b _ pb hsplit hp hin
      rw [hsplit, List.nodup_append] at hi1
      exact hi1.2.2 pb h1 pb hm rfl) hb hc0 k2 s2
  obtain ⟨⟨L3, g3, hb3⟩, q3, c3⟩ := Bud.moves hpos hN hnd hB om (by
      intro op hop
      obtain ⟨a, b, pb, pos, rfl⟩ := hmovP op hop
      obtain ⟨m1, _, _, m4, m5, pa, m6, _⟩ := hmovF a b pb pos (by simp [hop])
      exact ⟨a, b, pb, pos, rfl, m1, hM _ _ m1, (by rintro rfl; rw [h0] at m6; cases m6), m4, hmD a b pb pos (by simp [hop]), hat b pb pos m4 m5,
        fun hx => hx⟩) hmoved hb2 hc2 k3 s3
  obtain ⟨q4, c4⟩ := Shadow.Num.deletes (fun n => Nat.le_trans (hb3.bound n) hN) h0N od (by
      intro op hop
      obtain ⟨a, rfl, ha⟩ := hdelP op hop
      exact ⟨a, rfl, by show a < S3.superRoot; rw [hb3.super]; exact ha⟩) hb3.num s3 k4
  refine ⟨?_, ?_, fun n => hb.path hN h0N s0 n⟩
  · intro P hP
    simp only [List.mem_append] at hP
    rcases hP with h | h | h | h
    · exact q1 P h
    · exact q2 P h
    · exact q3 P h
    · exact q4 P h
  · simp only [countSort_append, c1, c2, c4]
    have := Nat.mul_le_mul_right (A.next + 2 * m + 1) hpl
    omega

end Hotmeal
