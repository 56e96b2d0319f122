import Verif.Lemmas.BudgetRun
import Verif.Props.Browser
import Verif.Model.Numbers

set_option autoImplicit false
set_option linter.unusedSectionVars false

/-!
# C66: the numbers in patches fit in 32 bits
-/

namespace Hotmeal

variable {H : Type} [DecidableEq H] {hashNode : HKind → Option Str → List H → H} {old new : Document}

theorem Built.fan {D : Document} {ob : Nat} {T : Arena TData} {g : Nat → Nat} (hb : Built D ob T g) {K : Nat}
    (hK : D.arena.Fan K) (n : Nat) : (T.children n).length ≤ K := by
  by_cases hn : n < T.next
  · have := hK (g n)
    rw [hb.kids n hn, List.length_map] at this
    exact this
  · cases e : T.children n with
    | nil => exact Nat.zero_le _
    | cons c cs => exact absurd (hb.wf.lt_of_parent c n ((hb.wf.mem_iff c n).1 (by rw [e]; simp))).2 hn

theorem shadow_num {A : Arena TData} {S : Shadow} (hA : A.WF) {K : Nat} (h1 : 1 ≤ K)
    (hK : ∀ n, (A.children n).length ≤ K) (hS : ShadowInit A S) : S.Num (fun _ => K) := by
  refine ⟨hS.shape, ?_, ?_⟩
  · intro n hn
    rw [hS.super] at hn
    rw [hS.children]
    split
    · exact h1
    · exact hK n
  · intro m hm
    rw [hS.super]
    have hm' : S.arena.parent m = some S.superRoot := hm
    rw [hS.parent, hS.super] at hm'
    split at hm'
    · injection hm' with hm'; omega
    · split at hm'
      · omega
      · have := (hA.lt_of_parent _ _ hm').2; omega

theorem slotsUsed_length (ps : List Patch) : (slotsUsed ps).length ≤ countSort .insert ps + countSort .move ps := by
  induction ps with
  | nil => exact Nat.le_refl _
  | cons P ps ih =>
    have hc : ∀ k, countSort k (P :: ps) = countSort k [P] + countSort k ps := fun k => countSort_append k [P] ps
    rw [hc, hc]
    have : (slotsUsed (P :: ps)).length ≤ (countSort .insert [P] + countSort .move [P]) + (slotsUsed ps).length := by
      unfold slotsUsed
      rw [List.filterMap_cons]
      cases hP : P.displaced with
      | none => simp only; omega
      | some s =>
        have : 1 ≤ countSort .insert [P] + countSort .move [P] := by
          cases P <;> first | (cases hP; done) | exact Nat.le_refl 1
        simp only [List.length_cons]; omega
    omega

theorem insertAllLoop_below {D : Arena NodeData} {N : Nat} : ∀ (cs : List Nat) (pos : Nat) {ps : List Patch},
    pos + cs.length ≤ N → insertAllLoop D pos cs = .ok ps → ∀ P ∈ ps, P.Below N
  | [], _, _, _, h => by cases h; intro P hP; cases hP
  | c :: cs, pos, ps, hK, h => by
    unfold insertAllLoop at h
    obtain ⟨Q, h1, h⟩ := res_bind h
    obtain ⟨qs, h2, h⟩ := res_bind h
    cases h
    rw [List.length_cons] at hK
    intro P hP
    rcases List.mem_cons.1 hP with rfl | hP
    · have hq : ∀ i ∈ ([0, pos] : Path), i < N := by
        intro i hi
        simp only [List.mem_cons, List.not_mem_nil, or_false] at hi
        omega
      unfold createInsertPatch at h1
      split at h1 <;> first
        | (cases h1; done)
        | (cases h1; intro q hm; simp only [Patch.paths, List.mem_singleton] at hm; subst hm; exact hq)
    · exact insertAllLoop_below cs (pos + 1) (by omega) h2 P hP

/-- **C66.** If no node is moved below itself (`NoBelowSelf`), every number in a path of a generated patch is smaller
than the largest number of children of an element of the two documents or not larger than the number of nodes of the
two pages, and every slot number is at most the number of nodes of the two pages. -/
theorem C66_numbers_straight (hold : old.Sound) (hnew : new.Sound) (hf : NoBelowSelf hashNode old new) {K : Nat}
    (hKo : old.arena.Fan K) (hKn : new.arena.Fan K) {ps : List Patch} (hd : diff hashNode old new = .ok ps) :
    ∀ P ∈ ps, (∀ q ∈ P.paths, ∀ i ∈ q, i < max K (old.size + new.size + 1)) ∧
      ∀ s, P.displaced = some s → s ≤ old.size + new.size := by
  have hslots : ∀ P ∈ ps, ∀ s, P.displaced = some s → s ≤ (slotsUsed ps).length := by
    intro P hP s hs
    obtain ⟨n, hn⟩ := C16_slots_numbered old new ps hd
    have hm : s ∈ slotsUsed ps := List.mem_filterMap.2 ⟨P, hP, hs⟩
    rw [hn] at hm ⊢
    rw [List.length_range']
    have := (List.mem_range'_1.1 hm).2
    omega
  have hlen : (slotsUsed ps).length ≤ old.size + new.size := by
    obtain ⟨h1, _, _, _, _, _, h7⟩ := C55_few_patches hold hnew hd
    have := slotsUsed_length ps
    have := h7 hf
    omega
  suffices h : ∀ P ∈ ps, P.Below (max K (old.size + new.size + 1)) from
    fun P hP => ⟨h P hP, fun s hs => Nat.le_trans (hslots P hP s hs) hlen⟩
  cases ho : old.body with
  | none =>
    unfold diff at hd
    rw [ho] at hd
    cases hn : new.body with
    | none => rw [hn] at hd; cases hd; intro P hP; cases hP
    | some nb =>
      rw [hn] at hd
      exact insertAllLoop_below _ 0 (by have := hKn nb; omega) hd
  | some ob =>
    cases hn : new.body with
    | none =>
      unfold diff at hd
      rw [ho, hn] at hd
      cases hd
      intro P hP
      obtain ⟨i, hi, rfl⟩ := List.mem_map.1 hP
      intro q hq j hj
      simp only [Patch.paths, List.mem_singleton] at hq
      subst hq
      have := hKo ob
      have hi := List.mem_range.1 (List.mem_reverse.1 hi)
      simp only [List.mem_cons, List.not_mem_nil, or_false] at hj
      omega
    | some nb =>
      have hd0 := hd
      unfold diff at hd
      rw [ho, hn] at hd
      simp only at hd
      split at hd
      · cases hd
      · obtain ⟨qs, h1, hd⟩ := res_bind hd
        obtain ⟨rs, h2, hd⟩ := res_bind hd
        cases hd
        obtain ⟨g, hb⟩ := buildTree_spec old hold.arena.leafy ob
        have hBw := Built.diffable_wf hnew.arena.wf
        obtain ⟨S0, e0, hS0⟩ := Shadow.new_init hb.wf hb.pos hb.root
        -- the bodies are children, so there is room for the new slot node
        have hK1 : 1 ≤ K := by
          obtain ⟨hbm, _⟩ := Document.body_spec ho
          exact Nat.le_trans (List.length_pos_of_mem hbm) (hKo _)
        have hnum := shadow_num hb.wf hK1 (hb.fan hKo) hS0
        intro P hP
        rcases List.mem_append.1 hP with hP | hP
        · unfold convertOps at h1
          obtain ⟨S, hS, h1⟩ := res_bind h1
          obtain ⟨⟨C, qs'⟩, h3, h1⟩ := res_bind h1
          have eq : qs' = qs := by injection h1
          subst eq
          have eS : S0 = S := by rw [e0] at hS; injection hS
          subst eS
          have hpairs := (diffMatching_pairs (hashNode := hashNode) hb.wf hBw (ra := 0) (rb := nb)).2
          have hlt : ∀ a, (buildTree old ob).Anc 0 a → a < (buildTree old ob).next := by
            intro a ha
            rcases ha.cases' with e | ⟨q, hq, _⟩
            · rw [← e]; exact hb.pos
            · exact (hb.wf.lt_of_parent _ _ hq).1
          refine convertLoop_num (K := K) (Nat.le_max_left _ _) (by omega) _ (C := ⟨S0, _⟩) ⟨hnum, ?_⟩
            (script_placed (hashNode := hashNode) (nb := nb) hBw hb.wf hKn) ?_ (hf ob nb ho hn S0 e0) h3 ?_ P hP
          · intro b s hs
            have := hlt s (hpairs s b (initBToShadow_mem hs)).1
            show s < S0.arena.next ∧ s ≠ S0.superRoot
            rw [hS0.next, hS0.super]
            omega
          · intro op hop
            show op.OldBelow S0.superRoot
            rw [hS0.super]
            cases op with
            | delete a =>
              have := (C11_deletes_are_the_unmatched hb.wf hb.pos _ a).1 hop
              exact hlt a (by first | exact this.1 | exact this.2.1)
            | move a b pb pos =>
              have := (C12_moves_exactly_when_needed hb.wf hBw _ _ _ _ _).1 hop
              exact hlt a (hpairs a b this.1).1
            | _ => trivial
          · obtain ⟨k, hk, hu⟩ := convertLoop_next h3
            have hu' : (slotsUsed qs').length = k := by rw [hu, List.length_range']
            have : (slotsUsed (qs' ++ rs)).length = (slotsUsed qs').length + (slotsUsed rs).length := by
              unfold slotsUsed; rw [List.filterMap_append, List.length_append]
            have := hS0.slots
            simp only at hk
            omega
        · unfold opaquePatches at h2
          split at h2
          · cases h2; cases hP
          · rw [e0] at h2
            cases h2
            obtain ⟨c, hc, rfl⟩ := List.mem_map.1 hP
            intro q hq
            simp only [Patch.paths, List.mem_singleton] at hq
            subst hq
            exact hnum.path (fun _ => Nat.le_max_left _ _) (by rw [hS0.slots]; omega) (by omega) c.1

theorem Arena.WF.fan_next {α : Type} {A : Arena α} (h : A.WF) : A.Fan A.next := by
  intro n
  have : (A.children n).length ≤ (List.range A.next).length :=
    nodup_length_le (h.nodup n) fun c hc => List.mem_range.2 (h.lt_of_parent _ _ ((h.mem_iff _ _).1 hc)).1
  rwa [List.length_range] at this

theorem Document.Sound.size_lt {D : Document} (h : D.Sound) : D.size < D.arena.next := by
  unfold Document.size
  cases hb : D.body with
  | none => exact Nat.lt_of_le_of_lt (Nat.zero_le _) h.root_lt
  | some b =>
    have hw := h.arena.wf
    obtain ⟨hbm, _⟩ := Document.body_spec hb
    have hp := (hw.mem_iff _ _).1 hbm
    have hlt := hw.lt_of_parent _ _ hp
    have hnd := hw.descendants_nodup b
    show (D.arena.descendants b).length < _
    have : ((D.arena.descendants b) ++ [D.root]).length ≤ (List.range D.arena.next).length := by
      refine nodup_length_le (l := D.arena.descendants b ++ [D.root]) ?_ ?_
      rotate_left
      · intro x hx
        rw [List.mem_range]
        rcases List.mem_append.1 hx with hx | hx
        · rcases ((hw.mem_descendants _ _).1 hx).cases' with e | ⟨q, hq, _⟩
          · rw [← e]; exact hlt.1
          · exact (hw.lt_of_parent _ _ hq).1
        · rw [List.mem_singleton.1 hx]; exact hlt.2
      · rw [List.nodup_append]
        refine ⟨hnd, by simp, ?_⟩
        intro x hx y hy e
        rw [List.mem_singleton.1 hy] at e
        have ha := (hw.mem_descendants _ _).1 hx
        rw [e] at ha
        exact hw.self_parent_ne hp (hw.anc_antisymm (.step hp .refl) ha)
    simp only [List.length_append, List.length_singleton, List.length_range] at this
    omega

theorem u32_of_small {ps : List Patch} (h : ∀ P ∈ ps, (∀ q ∈ P.paths, ∀ i ∈ q, i < 2 ^ 32) ∧
    ∀ s, P.displaced = some s → s < 2 ^ 32) : ps.map Patch.u32 = ps := by
  have hp : ∀ q : Path, (∀ i ∈ q, i < 2 ^ 32) → q.u32 = q := by
    intro q hq
    unfold Path.u32
    conv => rhs; rw [← List.map_id q]
    exact List.map_congr_left fun i hi => Nat.mod_eq_of_lt (hq i hi)
  have hsl : ∀ s : Option Nat, (∀ k, s = some k → k < 2 ^ 32) → s.map (· % 2 ^ 32) = s := by
    intro s hs
    cases s with
    | none => rfl
    | some k =>
      simp only [Option.map_some, Option.some.injEq]
      exact Nat.mod_eq_of_lt (hs k rfl)
  conv => rhs; rw [← List.map_id ps]
  refine List.map_congr_left fun P hP => ?_
  obtain ⟨h1, h2⟩ := h P hP
  cases P <;> dsimp only [Patch.displaced] at h2 <;> simp only [Patch.u32, id] <;> first
    | rw [hp _ (h1 _ (by simp [Patch.paths])), hp _ (h1 _ (by simp [Patch.paths])), hsl _ (fun k hk => h2 k hk)]
    | rw [hp _ (h1 _ (by simp [Patch.paths])), hsl _ (fun k hk => h2 k hk)]
    | rw [hp _ (h1 _ (by simp [Patch.paths]))]

/-- **C66.** If no node is moved below itself, documents with 2^32 nodes together are safe. -/
theorem C66_fits_u32_straight (hold : old.Sound) (hnew : new.Sound) (hf : NoBelowSelf hashNode old new)
    (hsz : old.arena.next + new.arena.next ≤ 2 ^ 32) {ps : List Patch} (hd : diff hashNode old new = .ok ps) :
    ps.map Patch.u32 = ps := by
  have h1 := hold.size_lt
  have h2 := hnew.size_lt
  have h := C66_numbers_straight hold hnew hf (K := old.arena.next + new.arena.next)
    (fun n => Nat.le_trans (hold.arena.wf.fan_next n) (Nat.le_add_right _ _))
    (fun n => Nat.le_trans (hnew.arena.wf.fan_next n) (Nat.le_add_left _ _)) hd
  exact u32_of_small fun P hP => ⟨fun q hq i hi => by have := (h P hP).1 q hq i hi; omega,
    fun s hs => by have := (h P hP).2 s hs; omega⟩

/-- What the budget gives for two bodies: `D` are the nodes of the new tree under which nodes are put, and there are at
most `m` of them, with at most `m` children together. -/
theorem diff_budget_pair {ob nb N m : Nat} {D : List Nat} (hold : old.Sound) (hnew : new.Sound) (ho : old.body = some ob)
    (hn : new.body = some nb) (hD : FewNodes (diffable new) D m) (hbD : ∀ b, (diffable new).Anc nb b → b ∈ D)
    (hiD : ∀ b pb pos k, .insert b pb pos k ∈ script hashNode old new ob nb → b ∈ D ∧ pb ∈ D)
    (hmD : ∀ a b pb pos, .move a b pb pos ∈ script hashNode old new ob nb → pb ∈ D)
    (hN : 2 * (old.size + 2 * m) ≤ N) {ps : List Patch} (hd : diff hashNode old new = .ok ps) :
    (∀ P ∈ ps, P.Below N) ∧ (slotsUsed ps).length ≤ old.size + m ∧
    countSort .move ps ≤ old.size * (old.size + 2 * m + 1) := by
  obtain ⟨g, hb⟩ := buildTree_spec old hold.arena.leafy ob
  have hBw := Built.diffable_wf hnew.arena.wf
  have hsz : (buildTree old ob).next = old.size := by
    have h1 : ((buildTree old ob).descendants 0).length = old.size := by
      unfold Document.size
      rw [ho]
      show _ = (old.arena.descendants ob).length
      have := hb.descendants hold.arena.wf 0 hb.pos
      rw [hb.g0] at this
      rw [this, List.length_map]
    have h2 := hb.wf.descendants_length hb.pos
    have h3 : (List.range (buildTree old ob).next).length ≤ ((buildTree old ob).descendants 0).length :=
      nodup_length_le List.nodup_range fun n hn =>
        (hb.wf.mem_descendants _ _).2 (hb.reach n (List.mem_range.1 hn))
    rw [List.length_range] at h3
    omega
  obtain ⟨S0, e0, hS0⟩ := Shadow.new_init hb.wf hb.pos hb.root
  unfold diff at hd
  rw [ho, hn] at hd
  simp only at hd
  split at hd
  · cases hd
  · obtain ⟨qs, h1, hd⟩ := res_bind hd
    obtain ⟨rs, h2, hd⟩ := res_bind hd
    cases hd
    unfold convertOps at h1
    obtain ⟨S, hS, h1⟩ := res_bind h1
    obtain ⟨⟨C, qs'⟩, hl, h1⟩ := res_bind h1
    have eq : qs' = qs := by injection h1
    subst eq
    have eS : S0 = S := by rw [e0] at hS; injection hS
    subst eS
    have hpairs := (diffMatching_pairs (hashNode := hashNode) hb.wf hBw (ra := 0) (rb := nb)).2
    have hM : ∀ a b, (a, b) ∈ (diffMatching (DiffTree.ofArena hashNode (buildTree old ob) 0)
        (DiffTree.ofArena hashNode (diffable new) nb)).pairs → a < (buildTree old ob).next := by
      intro a b hab
      rcases (hpairs a b hab).1.cases' with e | ⟨q, hq, _⟩
      · rw [← e]; exact hb.pos
      · exact (hb.wf.lt_of_parent _ _ hq).1
    have hnd : ((diffMatching (DiffTree.ofArena hashNode (buildTree old ob) 0)
        (DiffTree.ofArena hashNode (diffable new) nb)).pairs.map Prod.fst).Nodup := by
      obtain ⟨M, hMe, hnd, -⟩ := diffMatching_facts (hashNode := hashNode) hb.wf hBw (ra := 0) (rb := nb)
      rw [hMe]; exact hnd
    have hpl := (placings_script (hashNode := hashNode) (nb := nb) hb.wf hBw hM hnd hD hiD).2
    obtain ⟨k, hk, hu⟩ := convertLoop_next hl
    have hs0 := hS0.slots
    have hsl := convertLoop_slots _ hl
    simp only at hsl hk
    have hkb : k ≤ (buildTree old ob).next + m := by
      refine Nat.le_trans (Nat.le_of_add_le_add_left (a := S0.nextSlot) ?_) hpl
      rw [← hk]; exact hsl
    obtain ⟨b1, b2, b3⟩ := script_budget (N := N) hb.wf hBw hb.pos
      hb.root hb.reach hS0 hD hbD hiD hmD (by omega) (by have := hb.pos; omega) hl
    have hrs : ∀ P ∈ rs, ∃ n h, P = .opaqueChanged (S0.computePath n) h := by
      intro P hP
      unfold opaquePatches at h2
      split at h2
      · cases h2; cases hP
      · rw [e0] at h2
        cases h2
        obtain ⟨c, hc, rfl⟩ := List.mem_map.1 hP
        exact ⟨_, _, rfl⟩
    have hru : slotsUsed rs = [] := by
      unfold slotsUsed
      rw [List.filterMap_eq_nil_iff]
      intro P hP
      obtain ⟨n, h, rfl⟩ := hrs P hP
      rfl
    have hrm : countSort .move rs = 0 := by
      refine countSort_zero fun P hP e => ?_
      obtain ⟨n, h, rfl⟩ := hrs P hP
      cases e
    refine ⟨?_, ?_, ?_⟩
    · intro P hP
      rcases List.mem_append.1 hP with hP | hP
      · exact b1 P hP
      · obtain ⟨n, h, rfl⟩ := hrs P hP
        intro q hq
        simp only [Patch.paths, List.mem_singleton] at hq
        subst hq
        exact b3 n
    · have hu' : (slotsUsed qs').length = k := by rw [hu, List.length_range']
      have : slotsUsed (qs' ++ rs) = slotsUsed qs' ++ slotsUsed rs := by
        unfold slotsUsed; rw [List.filterMap_append]
      rw [this, hru, List.append_nil, hu']
      omega
    · rw [countSort_append, hrm, Nat.add_zero, ← hsz]
      exact b2

/-- What the budget gives for `diff`: a bound on the numbers in paths, on the slots and on the Moves. -/
theorem diff_budget (hold : old.Sound) (hnew : new.Sound) {ps : List Patch} (hd : diff hashNode old new = .ok ps) :
    (∀ P ∈ ps, P.Below (2 * (old.arena.next + 2 * new.arena.next))) ∧
    (slotsUsed ps).length ≤ old.size + new.arena.next ∧
    countSort .move ps ≤ old.size * (old.size + 2 * new.arena.next + 1) := by
  have hfo := hold.arena.wf.fan_next
  have hfn := hnew.arena.wf.fan_next
  have hone := hold.root_lt
  cases ho : old.body with
  | none =>
    unfold diff at hd
    rw [ho] at hd
    cases hn : new.body with
    | none =>
      rw [hn] at hd; cases hd
      exact ⟨(fun P hP => by cases hP), Nat.zero_le _, Nat.zero_le _⟩
    | some nb =>
      rw [hn] at hd
      have key : ∀ (cs : List Nat) (pos : Nat) (ps : List Patch), insertAllLoop new.arena pos cs = .ok ps →
          slotsUsed ps = [] ∧ countSort .move ps = 0 := by
        intro cs
        induction cs with
        | nil => intro pos ps h; cases h; exact ⟨rfl, rfl⟩
        | cons c cs ih =>
          intro pos ps h
          unfold insertAllLoop at h
          obtain ⟨Q, h1, h⟩ := res_bind h
          obtain ⟨qs, h2, h⟩ := res_bind h
          cases h
          obtain ⟨i1, i2⟩ := ih _ _ h2
          have hc : countSort .move (Q :: qs) = countSort .move [Q] + countSort .move qs := countSort_append _ [Q] qs
          have hu : slotsUsed (Q :: qs) = slotsUsed [Q] ++ slotsUsed qs := by
            unfold slotsUsed; rw [← List.filterMap_append]; rfl
          rw [hc, hu, i1, i2]
          unfold createInsertPatch at h1
          split at h1 <;> cases h1 <;> exact ⟨rfl, rfl⟩
      obtain ⟨k1, k2⟩ := key _ _ _ hd
      refine ⟨insertAllLoop_below _ 0 (by have := hfn nb; omega) hd, ?_, ?_⟩
      · rw [k1]; exact Nat.zero_le _
      · rw [k2]; exact Nat.zero_le _
  | some ob =>
    cases hn : new.body with
    | none =>
      unfold diff at hd
      rw [ho, hn] at hd
      cases hd
      refine ⟨?_, ?_, ?_⟩
      · intro P hP
        obtain ⟨i, hi, rfl⟩ := List.mem_map.1 hP
        intro q hq j hj
        simp only [Patch.paths, List.mem_singleton] at hq
        subst hq
        have := hfo ob
        have hi := List.mem_range.1 (List.mem_reverse.1 hi)
        simp only [List.mem_cons, List.not_mem_nil, or_false] at hj
        omega
      · have : slotsUsed (removeAll (old.arena.children ob).length) = [] := by
          unfold slotsUsed removeAll
          rw [List.filterMap_eq_nil_iff]
          intro P hP
          obtain ⟨i, hi, rfl⟩ := List.mem_map.1 hP
          rfl
        rw [this]; exact Nat.zero_le _
      · have : countSort .move (removeAll (old.arena.children ob).length) = 0 := by
          refine countSort_zero fun P hP e => ?_
          obtain ⟨i, hi, rfl⟩ := List.mem_map.1 hP
          cases e
        rw [this]; exact Nat.zero_le _
    | some nb =>
      have hBw := Built.diffable_wf hnew.arena.wf
      have hlt := hold.size_lt
      have hlt' : ∀ {b : Nat}, (diffable new).Anc nb b → b < new.arena.next := by
        intro b hb
        rcases hb.cases' with e | ⟨q, hq, _⟩
        · rw [← e]
          exact (hnew.arena.wf.lt_of_parent _ _ ((hnew.arena.wf.mem_iff _ _).1 (Document.body_spec hn).1)).1
        · exact (hBw.lt_of_parent _ _ hq).1
      obtain ⟨g, hb⟩ := buildTree_spec old hold.arena.leafy ob
      exact diff_budget_pair hold hnew ho hn hBw.few_all (fun b hb => List.mem_range.2 (hlt' hb))
        (fun b pb pos k h => by
          have := hBw.lt_of_parent _ _ ((C10_inserts_are_the_unmatched hBw _ b pb pos k).1 h).2.2.2.1
          exact ⟨List.mem_range.2 this.1, List.mem_range.2 this.2⟩)
        (fun a b pb pos h => List.mem_range.2
          (hBw.lt_of_parent _ _ ((C12_moves_exactly_when_needed hb.wf hBw _ a b pb pos).1 h).2.2.2.1).2)
        (by show 2 * (old.size + 2 * new.arena.next) ≤ _; omega) hd

/-- **C66.** For all pairs of documents, every number in a path of a generated patch is below
`2 * (old nodes + 2 * new nodes)`, and every slot number is at most the number of nodes of the two documents. -/
theorem C66_numbers (hold : old.Sound) (hnew : new.Sound) {ps : List Patch} (hd : diff hashNode old new = .ok ps) :
    ∀ P ∈ ps, (∀ q ∈ P.paths, ∀ i ∈ q, i < 2 * (old.arena.next + 2 * new.arena.next)) ∧
      ∀ s, P.displaced = some s → s ≤ old.size + new.arena.next := by
  obtain ⟨h1, h2, _⟩ := diff_budget hold hnew hd
  refine fun P hP => ⟨h1 P hP, fun s hs => Nat.le_trans ?_ h2⟩
  obtain ⟨n, hn⟩ := C16_slots_numbered old new ps hd
  have hm : s ∈ slotsUsed ps := List.mem_filterMap.2 ⟨P, hP, hs⟩
  rw [hn] at hm ⊢
  rw [List.length_range']
  have := (List.mem_range'_1.1 hm).2
  omega

/-- **C66.** If the two documents together have at most 2^30 nodes, no number in the patches is changed by the
casts to 32 bits. -/
theorem C66_fits_u32 (hold : old.Sound) (hnew : new.Sound) (hsz : old.arena.next + new.arena.next ≤ 2 ^ 30)
    {ps : List Patch} (hd : diff hashNode old new = .ok ps) : ps.map Patch.u32 = ps := by
  have h := C66_numbers hold hnew hd
  have h1 := hold.size_lt
  exact u32_of_small fun P hP => ⟨fun q hq i hi => by have := (h P hP).1 q hq i hi; omega,
    fun s hs => by have := (h P hP).2 s hs; omega⟩

/-- What the budget gives for two pages that can be compared: only the nodes of the bodies count. -/
theorem body_budget {ob nb : Nat} (h : Comparable old new ob nb)
    (hc : NoCollision hashNode (buildTree old ob) (diffable new) nb) {ps : List Patch}
    (hd : diff hashNode old new = .ok ps) :
    (∀ P ∈ ps, P.Below (2 * (old.size + 2 * new.size))) ∧ (slotsUsed ps).length ≤ old.size + new.size ∧
    countSort .move ps ≤ old.size * (old.size + 2 * new.size + 1) := by
  have hold := h.old.sound
  have hnew := h.new.sound
  obtain ⟨g, hb⟩ := buildTree_spec old hold.arena.leafy ob
  have hBw := Built.diffable_wf hnew.arena.wf
  have hm : ((diffable new).descendants nb).length ≤ new.size := by
    unfold Document.size
    rw [h.new.body]
    exact nodup_length_le (hBw.descendants_nodup nb) fun n hn =>
      (hnew.arena.wf.mem_descendants _ _).2 (anc_of_diffable ((hBw.mem_descendants _ _).1 hn))
  obtain ⟨hgood, hroot⟩ := diffMatching_good hb.wf hBw hc (h.rootsApart hb)
  have hr := (hgood.getA 0 nb).2 hroot
  have few := hBw.few_below nb
  refine diff_budget_pair hold hnew h.old.body h.new.body
    (D := (diffable new).descendants nb) ⟨few.nodup, hm, fun l h1 h2 => Nat.le_trans (few.sum l h1 h2) hm⟩
    (fun b hb => (hBw.mem_descendants _ _).2 hb) ?_ ?_ (Nat.le_refl _) hd
  · intro b pb pos k hop
    obtain ⟨i1, i2, -, i4, -⟩ := (C10_inserts_are_the_unmatched hBw _ b pb pos k).1 hop
    refine ⟨(hBw.mem_descendants _ _).2 i1, (hBw.mem_descendants _ _).2 ?_⟩
    rcases i1.cases' with e | ⟨q, hq, ha⟩
    · subst e
      cases (hr.symm.trans i2 : some 0 = none)
    · rw [i4] at hq; cases hq; exact ha
  · intro a b pb pos hop
    obtain ⟨i1, -, -, i4, -, pa, i6, -⟩ := (C12_moves_exactly_when_needed hb.wf hBw _ a b pb pos).1 hop
    rw [hBw.mem_descendants]
    rcases (hgood.rel a b i1).2.1.cases' with e | ⟨q, hq, ha⟩
    · subst e
      have h1 := (hgood.getA _ _).2 i1
      rw [hr] at h1; cases h1
      rw [hb.root] at i6; cases i6
    · rw [i4] at hq; cases hq; exact ha

/-- **C66.** For two pages that can be compared (C01) and whose hashes do not collide, only the bodies count: every
number in a path is below `2 * (old.size + 2 * new.size)`, and every slot number is at most `old.size + new.size`. What
is in the heads, and what was read and thrown away, does not matter. -/
theorem C66_numbers_of_bodies {ob nb : Nat} (h : Comparable old new ob nb)
    (hc : NoCollision hashNode (buildTree old ob) (diffable new) nb) {ps : List Patch}
    (hd : diff hashNode old new = .ok ps) :
    ∀ P ∈ ps, (∀ q ∈ P.paths, ∀ i ∈ q, i < 2 * (old.size + 2 * new.size)) ∧
      ∀ s, P.displaced = some s → s ≤ old.size + new.size := by
  obtain ⟨h1, h2, _⟩ := body_budget h hc hd
  refine fun P hP => ⟨h1 P hP, fun s hs => Nat.le_trans ?_ h2⟩
  obtain ⟨n, hn⟩ := C16_slots_numbered old new ps hd
  have hm : s ∈ slotsUsed ps := List.mem_filterMap.2 ⟨P, hP, hs⟩
  rw [hn] at hm ⊢
  rw [List.length_range']
  have := (List.mem_range'_1.1 hm).2
  omega

/-- **C66.** Hence bodies with at most 2^30 nodes together are safe, however large the documents around them are. -/
theorem C66_bodies_fit_u32 {ob nb : Nat} (h : Comparable old new ob nb)
    (hc : NoCollision hashNode (buildTree old ob) (diffable new) nb) (hsz : old.size + new.size ≤ 2 ^ 30)
    {ps : List Patch} (hd : diff hashNode old new = .ok ps) : ps.map Patch.u32 = ps := by
  have h := C66_numbers_of_bodies h hc hd
  exact u32_of_small fun P hP => ⟨fun q hq i hi => by have := (h P hP).1 q hq i hi; omega,
    fun s hs => by have := (h P hP).2 s hs; omega⟩

/-- **C55.** For all pairs of documents, also when a node has to be moved below itself, the number of Moves is at most
quadratic, and hence the number of patches as well. -/
theorem C55_moves_bounded (hold : old.Sound) (hnew : new.Sound) {ps : List Patch}
    (hd : diff hashNode old new = .ok ps) :
    countSort .move ps ≤ old.size * (old.size + 2 * new.arena.next + 1) :=
  (diff_budget hold hnew hd).2.2

/-- **C55.** For two pages that can be compared and whose hashes do not collide, only the bodies count. -/
theorem C55_moves_bounded_by_bodies {ob nb : Nat} (h : Comparable old new ob nb)
    (hc : NoCollision hashNode (buildTree old ob) (diffable new) nb) {ps : List Patch}
    (hd : diff hashNode old new = .ok ps) : countSort .move ps ≤ old.size * (old.size + 2 * new.size + 1) :=
  (body_budget h hc hd).2.2

/-- The two pages of C52 meet the hypotheses; their patches have paths and slots. -/
example : (Document.ofForest sections1).Sound ∧ (Document.ofForest sections2).Sound ∧
    NoBelowSelf Shape.node (.ofForest sections1) (.ofForest sections2) ∧
    (Document.ofForest sections1).arena.next + (Document.ofForest sections2).arena.next ≤ 2 ^ 32 ∧
    (match diff Shape.node (.ofForest sections1) (.ofForest sections2) with
      | .ok ps => decide (ps.flatMap Patch.paths ≠ []) && decide (slotsUsed ps ≠ [])
      | .error _ => false) = true := by
  refine ⟨ofForest_sound _ (by decide +kernel), ofForest_sound _ (by decide +kernel), ?_, by decide +kernel,
    by decide +kernel⟩
  intro ob nb ho hn
  have h1 : (Document.ofForest sections1).body = some 2 := by decide +kernel
  have h2 : (Document.ofForest sections2).body = some 2 := by decide +kernel
  rw [h1] at ho; rw [h2] at hn
  cases ho; cases hn
  exact noMoveBelowSelf_of_movesSafe (by decide +kernel)

/-- They also meet the hypotheses of the theorems about bodies, and the bodies are smaller than the documents. -/
example : Comparable (.ofForest sections1) (.ofForest sections2) 2 2 ∧
    NoCollision Shape.node (buildTree (.ofForest sections1) 2) (diffable (.ofForest sections2)) 2 ∧
    (Document.ofForest sections1).size + (Document.ofForest sections2).size ≤ 2 ^ 30 ∧
    (Document.ofForest sections1).size < (Document.ofForest sections1).arena.next :=
  ⟨comparable_ofForest (by decide +kernel) (by decide +kernel), noCollision_shape _ _ _, by decide +kernel,
    by decide +kernel⟩

/-- A number above the bound is changed by the cast. -/
example : (Patch.remove [0, 2 ^ 32 + 1]).u32 = .remove [0, 1] := rfl

/-- The pages of `C01_violated_silently` meet the hypotheses of the theorems without `NoBelowSelf`: a node is moved below
itself, so that more Moves are sent than nodes are moved, and slots are used. -/
example : (Document.ofForest split1).Sound ∧ (Document.ofForest split2).Sound ∧
    (Document.ofForest split1).arena.next + (Document.ofForest split2).arena.next ≤ 2 ^ 30 ∧
    (match diff Shape.node (.ofForest split1) (.ofForest split2) with
      | .ok ps => decide ((movedNodes (script Shape.node (.ofForest split1) (.ofForest split2) 2 2)).length <
          countSort .move ps) && decide (slotsUsed ps ≠ [])
      | .error _ => false) = true :=
  ⟨ofForest_sound _ (by decide +kernel), ofForest_sound _ (by decide +kernel), by decide +kernel, by decide +kernel⟩

end Hotmeal
