import Verif.Lemmas.Traffic
import Verif.Props.Provenance
import Verif.Props.Termination
import Verif.Props.Unique

set_option autoImplicit false
set_option linter.unusedSectionVars false

/-!
# C55: how much the patches send

Nothing is assumed about hashes and opaque elements.
-/

namespace Hotmeal

variable {H : Type} [DecidableEq H] {hashNode : HKind → Option Str → List H → H}
  {old new : Document}

/-- The number of nodes of the page: its body and everything below it. -/
def Document.size (D : Document) : Nat := match D.body with
  | none => 0
  | some b => (D.arena.descendants b).length

theorem insertAllLoop_nodes {D : Arena NodeData} (hleaf : Leafy D) {b : Nat}
    (hdoc : ∀ n, D.Anc b n → (D.data n).kind ≠ .document) :
    ∀ (cs : List Nat) (pos : Nat) (ps : List Patch), (∀ c ∈ cs, D.Anc b c) →
      insertAllLoop D pos cs = .ok ps →
      ps.flatMap Patch.nodes = (cs.flatMap D.descendants).map fun n => (D.data n).kind := by
  intro cs
  induction cs with
  | nil => intro pos ps _ h; cases h; rfl
  | cons c cs ih =>
    intro pos ps hcs h
    obtain ⟨p, h1, h⟩ := res_bind h
    obtain ⟨qs, h2, h⟩ := res_bind h
    cases h
    rw [List.flatMap_cons, List.flatMap_cons, List.map_append, ih _ _ (fun c hc => hcs c (by simp [hc])) h2]
    congr 1
    have hc := hcs c (by simp)
    rw [hleaf.wf.descendants_flatMap, List.map_cons]
    unfold createInsertPatch at h1
    split at h1
    · next tag attrs ek =>
      cases h1
      rw [ek, List.map_flatMap]
      show _ :: InsertContent.nodesL _ = _
      congr 1
      exact flatMap_filterMap_nodes fun m hm =>
        insertContent_nodes hleaf.wf hleaf hdoc m (.step ((hleaf.wf.mem_iff _ _).1 hm) hc)
    · next s ek => cases h1; rw [ek, hleaf.leaf c (.inl ⟨s, ek⟩)]; rfl
    · next s ek => cases h1; rw [ek, hleaf.leaf c (.inr ⟨s, ek⟩)]; rfl
    · cases h1

theorem insertedNodes_generate (TA TB : DiffTree H) (M : Matching) :
    insertedNodes (generateEditScript TA TB M) = insertedNodes (insertOps TB M (opaqueDescendants TB)) := by
  have h0 : ∀ ops : List EditOp, (∀ op ∈ ops, ∀ b p i k, op ≠ .insert b p i k) → insertedNodes ops = [] := by
    intro ops h
    unfold insertedNodes
    rw [List.filterMap_eq_nil_iff]
    intro op hop
    cases op with
    | insert b p i k => exact absurd rfl (h _ hop b p i k)
    | _ => rfl
  have e1 : insertedNodes (updateOps TA TB M (opaqueDescendants TA) (opaqueDescendants TB)) = [] := by
    refine h0 _ fun op hop b p i k e => ?_
    subst e
    obtain ⟨q, _, hop⟩ := List.mem_flatMap.1 hop
    split at hop
    · cases hop
    · rcases List.mem_append.1 hop with hop | hop
      · rcases textOps_cases TA TB q.1 q.2 with e | ⟨t, e⟩ <;> rw [e] at hop
        · cases hop
        · rw [List.mem_singleton] at hop; cases hop
      · rcases propOps_cases TA TB q.1 q.2 with e | ⟨t, e⟩ <;> rw [e] at hop
        · cases hop
        · rw [List.mem_singleton] at hop; cases hop
  have e2 : insertedNodes (moveOps TA TB M (opaqueDescendants TA) (opaqueDescendants TB)) = [] := by
    refine h0 _ fun op hop b p i k e => ?_
    subst e
    obtain ⟨q, _, hop⟩ := List.mem_flatMap.1 hop
    rcases moveOp_cases TA TB M (opaqueDescendants TA) (opaqueDescendants TB) q with e | ⟨t, j, e⟩ <;> rw [e] at hop
    · cases hop
    · rw [List.mem_singleton] at hop; cases hop
  have e3 : insertedNodes (deleteOps TA M (opaqueDescendants TA)) = [] := by
    refine h0 _ fun op hop b p i k e => ?_
    subst e
    obtain ⟨q, _, hop⟩ := List.mem_flatMap.1 hop
    split at hop
    · cases hop
    · split at hop
      · cases hop
      · rw [List.mem_singleton] at hop; cases hop
  unfold insertedNodes at e1 e2 e3
  unfold insertedNodes
  simp only [generateEditScript, List.filterMap_append, e1, e2, e3, List.nil_append, List.append_nil]

theorem insertedNodes_sublist (TB : DiffTree H) (M : Matching) (o : List Nat) :
    (insertedNodes (insertOps TB M o)).Sublist TB.iter := by
  unfold insertOps insertedNodes
  induction TB.iter with
  | nil => exact .slnil
  | cons b l ih =>
    rw [List.flatMap_cons, List.filterMap_append]
    split
    · exact ih.cons b
    · split
      · exact ih.cons b
      · split
        · exact ih.cons b
        · exact ih.cons_cons b

theorem diffable_descendants {D : Document} (hw : D.arena.WF) (hB : (diffable D).WF) (n : Nat) :
    (diffable D).descendants n = D.arena.descendants n := by
  refine hw.induct_down (P := fun n => (diffable D).descendants n = D.arena.descendants n) ?_ n
  intro n ih
  rw [hw.descendants_flatMap, hB.descendants_flatMap]
  congr 1
  show (D.arena.children n).flatMap _ = _
  have : ∀ l : List Nat, (∀ c ∈ l, c ∈ D.arena.children n) →
      l.flatMap (diffable D).descendants = l.flatMap D.arena.descendants := by
    intro l
    induction l with
    | nil => intro _; rfl
    | cons c l ih2 =>
      intro hl
      rw [List.flatMap_cons, List.flatMap_cons, ih c (hl c (by simp)), ih2 fun d hd => hl d (by simp [hd])]
  exact this _ fun _ h => h

/-- What `diff` does when both documents have a body. -/
theorem diff_bodies {ob nb : Nat} (ho : old.body = some ob) (hn : new.body = some nb) {ps : List Patch}
    (hw : new.arena.WF) (hd : diff hashNode old new = .ok ps) :
    (∀ n, new.arena.Anc nb n → (new.arena.data n).kind ≠ .document) ∧
    ∃ S C qs rs, ps = qs ++ rs ∧ Shadow.new (buildTree old ob) 0 = .ok S ∧
      convertLoop (diffable new) (insertedNodes (script hashNode old new ob nb))
        ⟨S, initBToShadow (diffMatching (oldTree hashNode old ob) (newTree hashNode new nb))⟩
        (script hashNode old new ob nb) = .ok (C, qs) ∧
      rs.length ≤ (diffMatching (oldTree hashNode old ob) (newTree hashNode new nb)).pairs.length ∧
      ∀ P ∈ rs, P.sort = .opaque := by
  unfold diff at hd
  rw [ho, hn] at hd
  simp only at hd
  split at hd
  · cases hd
  · next hdoc =>
    refine ⟨?_, ?_⟩
    · intro n hn e
      refine hdoc ?_
      rw [List.any_eq_true]
      exact ⟨n, (hw.mem_descendants _ _).2 hn, by simpa using e⟩
    · obtain ⟨qs, h1, hd⟩ := res_bind hd
      obtain ⟨rs, h2, hd⟩ := res_bind hd
      cases hd
      unfold convertOps at h1
      obtain ⟨S, hS, h1⟩ := res_bind h1
      obtain ⟨v, h3, h1⟩ := res_bind h1
      cases h1
      refine ⟨S, v.1, v.2, rs, rfl, hS, h3, ?_, ?_⟩
      · unfold opaquePatches at h2
        split at h2
        · cases h2; exact Nat.zero_le _
        · obtain ⟨S, _, h2⟩ := res_bind h2
          cases h2
          rw [List.length_map]
          exact List.length_filterMap_le _ _
      · unfold opaquePatches at h2
        split at h2
        · cases h2; simp
        · obtain ⟨S, _, h2⟩ := res_bind h2
          cases h2
          intro P hP
          obtain ⟨c, _, rfl⟩ := List.mem_map.1 hP
          rfl

theorem nodes_nil_of_opaque {P : Patch} (h : P.sort = .opaque) : P.nodes = [] := by
  cases P <;> first | rfl | cases h

/-- **C55.** No piece of the new page is sent twice: the nodes that the patches of a diff create, one after
the other, are copies of pairwise different nodes of the new page. -/
theorem C55_nothing_is_sent_twice (hold : old.Sound) (hnew : new.Sound) {ps : List Patch}
    (hd : diff hashNode old new = .ok ps) : ∃ ns : List Nat, ns.Nodup ∧
      (∀ n ∈ ns, new.arena.Anc (new.body.getD new.root) n) ∧
      ps.flatMap Patch.nodes = ns.map fun n => (new.arena.data n).kind := by
  have hw := hnew.arena.wf
  have hleaf := hnew.arena.leafy
  cases hn : new.body with
  | none =>
    refine ⟨[], List.nodup_nil, by simp, ?_⟩
    unfold diff at hd
    rw [hn] at hd
    cases ho : old.body with
    | none => rw [ho] at hd; cases hd; rfl
    | some ob =>
      rw [ho] at hd; cases hd
      show _ = []
      rw [List.flatMap_eq_nil_iff]
      intro P hP
      obtain ⟨i, _, rfl⟩ := List.mem_map.1 hP
      rfl
  | some nb =>
    show ∃ ns : List Nat, ns.Nodup ∧ (∀ n ∈ ns, new.arena.Anc nb n) ∧ _
    cases ho : old.body with
    | none =>
      unfold diff at hd
      rw [hn, ho] at hd
      obtain ⟨hnm, na, hnk⟩ := Document.body_spec hn
      have hdoc : ∀ n, new.arena.Anc nb n → (new.arena.data n).kind ≠ .document := by
        intro n ha
        rcases ha.cases' with e | ⟨q, hq, _⟩
        · rw [← e, hnk]; intro e; cases e
        · exact hnew.arena.nodoc n q hq
      have hsub : ((new.arena.children nb).flatMap new.arena.descendants).Sublist (new.arena.descendants nb) := by
        rw [hw.descendants_flatMap nb]; exact (List.Sublist.refl _).cons _
      refine ⟨_, hsub.nodup (hw.descendants_nodup nb), fun n hn => (hw.mem_descendants _ _).1 (hsub.subset hn), ?_⟩
      exact insertAllLoop_nodes hleaf hdoc _ _ _ (fun c hc => .step ((hw.mem_iff _ _).1 hc) .refl) hd
    | some ob =>
      obtain ⟨hdoc, S, C, qs, rs, rfl, hS, hl, _, hrs⟩ := diff_bodies ho hn hw hd
      obtain ⟨g, hb⟩ := buildTree_spec old hold.arena.leafy ob
      have hBw := Built.diffable_wf hw
      have hpairs := (diffMatching_pairs (hashNode := hashNode) hb.wf hBw (ra := 0) (rb := nb)).2
      obtain ⟨ns, hs, e⟩ := convertLoop_sent hleaf hBw hdoc _
        (script_from hw hBw fun a b hab => anc_of_diffable (hpairs a b hab).2) hl
      have hsub : (insertedNodes (script hashNode old new ob nb)).Sublist (new.arena.descendants nb) := by
        unfold script
        rw [insertedNodes_generate]
        have := insertedNodes_sublist (newTree hashNode new nb)
          (diffMatching (oldTree hashNode old ob) (newTree hashNode new nb)) (opaqueDescendants (newTree hashNode new nb))
        rw [← diffable_descendants hw hBw]
        exact this
      obtain ⟨h1, h2⟩ := hs.spec hw (hsub.nodup (hw.descendants_nodup nb)) fun b hb => hb
      refine ⟨ns, h1, ?_, ?_⟩
      · intro n hn
        obtain ⟨b, hb, _, ha⟩ := h2 n hn
        exact ((hw.mem_descendants _ _).1 (hsub.subset hb)).trans ha
      · rw [List.flatMap_append, e]
        have : rs.flatMap Patch.nodes = [] := by
          rw [List.flatMap_eq_nil_iff]
          exact fun P hP => nodes_nil_of_opaque (hrs P hP)
        rw [this, List.append_nil]

theorem Built.descendants {D : Document} {ob : Nat} {T : Arena TData} {g : Nat → Nat} (hb : Built D ob T g) (hD : D.arena.WF)
    (n : Nat) : n < T.next → D.arena.descendants (g n) = (T.descendants n).map g := by
  refine hb.wf.induct_down (P := fun n => n < T.next → D.arena.descendants (g n) = (T.descendants n).map g) ?_ n
  intro n ih hn
  rw [hD.descendants_flatMap, hb.wf.descendants_flatMap, hb.kids n hn, List.map_cons, List.map_flatMap, List.flatMap_map]
  congr 1
  have : ∀ l : List Nat, (∀ c ∈ l, c ∈ T.children n) →
      l.flatMap (fun c => D.arena.descendants (g c)) = l.flatMap fun c => (T.descendants c).map g := by
    intro l
    induction l with
    | nil => intro _; rfl
    | cons c l ih2 =>
      intro hl
      have hc := hl c (by simp)
      rw [List.flatMap_cons, List.flatMap_cons, ih2 fun d hd => hl d (by simp [hd]),
        ih c hc (hb.wf.lt_of_parent _ _ ((hb.wf.mem_iff _ _).1 hc)).1]
  exact this _ fun c hc => hc

theorem countSort_le_length (k : PatchSort) (ps : List Patch) : countSort k ps ≤ ps.length := List.countP_le_length

theorem countSort_zero {k : PatchSort} {ps : List Patch} (h : ∀ P ∈ ps, P.sort ≠ k) : countSort k ps = 0 := by
  unfold countSort
  rw [List.countP_eq_zero]
  intro P hP e
  exact h P hP (of_decide_eq_true e)

theorem countSort_insert_le (ps : List Patch) : countSort .insert ps ≤ (ps.flatMap Patch.nodes).length := by
  induction ps with
  | nil => exact Nat.le_refl _
  | cons P ps ih =>
    rw [List.flatMap_cons, List.length_append]
    have : countSort .insert (P :: ps) = countSort .insert [P] + countSort .insert ps := countSort_append _ [P] ps
    rw [this]
    have : countSort .insert [P] ≤ P.nodes.length := by
      cases P <;> first | exact Nat.zero_le _ | (show 1 ≤ _; simp [Patch.nodes])
    omega

theorem pairs_length {A B : Arena TData} (hA : A.WF) (hB : B.WF) {ra rb : Nat} :
    (diffMatching (DiffTree.ofArena hashNode A ra) (DiffTree.ofArena hashNode B rb)).pairs.length ≤
      (A.descendants ra).length := by
  obtain ⟨M, e, hnd, _, hin, _⟩ := diffMatching_facts (hashNode := hashNode) hA hB (ra := ra) (rb := rb)
  rw [e, ← List.length_map (f := Prod.fst)]
  refine nodup_length_le hnd fun x hx => ?_
  obtain ⟨p, hp, rfl⟩ := List.mem_map.1 hx
  exact (hA.mem_descendants _ _).2 (hin p.1 p.2 hp).1

/-- No Move of the script puts a node below itself, whichever bodies there are. -/
def NoBelowSelf (hashNode : HKind → Option Str → List H → H) (old new : Document) : Prop :=
  ∀ ob nb, old.body = some ob → new.body = some nb → NoMoveBelowSelf hashNode old new ob nb

/-- **C55.** Every node of the old page is removed at most once, gets at most one new text, one new list
of attributes and one new inner HTML, and is moved at most once, unless some node has to be moved below itself;
there is at most one insertion for a node of the new page. -/
theorem C55_few_patches (hold : old.Sound) (hnew : new.Sound) {ps : List Patch}
    (hd : diff hashNode old new = .ok ps) :
    countSort .insert ps ≤ new.size ∧ countSort .remove ps ≤ old.size ∧ countSort .text ps ≤ old.size ∧
    countSort .props ps ≤ old.size ∧ countSort .opaque ps ≤ old.size ∧ countSort .attribute ps = 0 ∧
    (NoBelowSelf hashNode old new → countSort .move ps ≤ old.size) := by
  have hw := hnew.arena.wf
  have hi : countSort .insert ps ≤ new.size := by
    obtain ⟨ns, h1, h2, h3⟩ := C55_nothing_is_sent_twice hold hnew hd
    refine Nat.le_trans (countSort_insert_le ps) ?_
    rw [h3, List.length_map]
    unfold Document.size
    cases hn : new.body with
    | none =>
      have : ns.length = (ps.flatMap Patch.nodes).length := by rw [h3, List.length_map]
      have hz : ps.flatMap Patch.nodes = [] := by
        unfold diff at hd
        rw [hn] at hd
        cases ho : old.body with
        | none => rw [ho] at hd; cases hd; rfl
        | some ob =>
          rw [ho] at hd; cases hd
          rw [List.flatMap_eq_nil_iff]
          intro P hP
          obtain ⟨i, _, rfl⟩ := List.mem_map.1 hP
          rfl
      rw [this, hz]; exact Nat.le_refl _
    | some nb =>
      rw [hn] at h2
      exact nodup_length_le h1 fun n hn => (hw.mem_descendants _ _).2 (h2 n hn)
  refine ⟨hi, ?_⟩
  cases hn : new.body with
  | none =>
    unfold diff at hd
    rw [hn] at hd
    cases ho : old.body with
    | none =>
      rw [ho] at hd; cases hd
      exact ⟨Nat.zero_le _, Nat.zero_le _, Nat.zero_le _, Nat.zero_le _, rfl, fun _ => Nat.zero_le _⟩
    | some ob =>
      rw [ho] at hd; cases hd
      have hz : ∀ k, k ≠ .remove → countSort k (removeAll (old.arena.children ob).length) = 0 := by
        intro k hk
        refine countSort_zero fun P hP e => ?_
        obtain ⟨i, _, rfl⟩ := List.mem_map.1 hP
        exact hk e.symm
      rw [hz .text (by decide), hz .props (by decide), hz .opaque (by decide), hz .attribute (by decide),
        hz .move (by decide)]
      refine ⟨?_, Nat.zero_le _, Nat.zero_le _, Nat.zero_le _, rfl, fun _ => Nat.zero_le _⟩
      refine Nat.le_trans (countSort_le_length _ _) ?_
      unfold removeAll Document.size
      rw [ho, List.length_map, List.length_reverse, List.length_range]
      show _ ≤ (old.arena.descendants ob).length
      have hwo := hold.arena.wf
      exact nodup_length_le (hwo.nodup ob) fun c hc =>
        (hwo.mem_descendants _ _).2 (.step ((hwo.mem_iff _ _).1 hc) .refl)
  | some nb =>
    cases ho : old.body with
    | none =>
      unfold diff at hd
      rw [hn, ho] at hd
      have key : ∀ (cs : List Nat) (pos : Nat) (ps : List Patch), insertAllLoop new.arena pos cs = .ok ps →
          ∀ P ∈ ps, P.sort = .insert := by
        intro cs
        induction cs with
        | nil => intro pos ps h; cases h; intro P hP; cases hP
        | cons c cs ih =>
          intro pos ps h
          obtain ⟨p, h1, h⟩ := res_bind h
          obtain ⟨qs, h2, h⟩ := res_bind h
          cases h
          intro P hP
          rcases List.mem_cons.1 hP with rfl | hP
          · unfold createInsertPatch at h1
            split at h1 <;> cases h1 <;> rfl
          · exact ih _ _ h2 P hP
      have hz : ∀ k, k ≠ .insert → countSort k ps = 0 := fun k hk =>
        countSort_zero fun P hP e => hk (e.symm.trans (key _ _ _ hd P hP))
      rw [hz .text (by decide), hz .props (by decide), hz .opaque (by decide), hz .attribute (by decide),
        hz .move (by decide), hz .remove (by decide)]
      exact ⟨Nat.zero_le _, Nat.zero_le _, Nat.zero_le _, Nat.zero_le _, rfl, fun _ => Nat.zero_le _⟩
    | some ob =>
      obtain ⟨hdoc, S, C, qs, rs, rfl, hS, hl, hlen, hrs⟩ := diff_bodies ho hn hw hd
      obtain ⟨g, hb⟩ := buildTree_spec old hold.arena.leafy ob
      have hBw := Built.diffable_wf hw
      have hsz : ((buildTree old ob).descendants 0).length = old.size := by
        unfold Document.size
        rw [ho]
        show _ = (old.arena.descendants ob).length
        have := hb.descendants hold.arena.wf 0 hb.pos
        rw [hb.g0] at this
        rw [this, List.length_map]
      have hp := pairs_length (hashNode := hashNode) hb.wf hBw (ra := 0) (rb := nb)
      rw [hsz] at hp
      have hp' : (diffMatching (oldTree hashNode old ob) (newTree hashNode new nb)).pairs.length ≤ old.size := hp
      have hz : ∀ k, k ≠ .opaque → countSort k rs = 0 := fun k hk =>
        countSort_zero fun P hP e => hk (e.symm.trans (hrs P hP))
      have hs := script_sort (oldTree hashNode old ob) (newTree hashNode new nb)
        (diffMatching (oldTree hashNode old ob) (newTree hashNode new nb))
      have hq := convertLoop_sort _ hl
      simp only [countSort_append]
      rw [hz .text (by decide), hz .props (by decide), hz .attribute (by decide),
        hz .move (by decide), hz .remove (by decide), hq .text (by decide), hq .props (by decide),
        hq .attribute (by decide), hq .remove (by decide), hq .opaque (by decide)]
      have ho' := countSort_le_length .opaque rs
      have h1 := hs .text
      have h2 := hs .props
      have h3 := hs .attribute
      have h4 := hs .remove
      have h5 := hs .opaque
      have h6 := hs .move
      have hpost : (oldTree hashNode old ob).postOrder.length = old.size := by
        rw [← hsz]
        show ((buildTree old ob).postOrder 0).length = _
        rw [hb.wf.postOrder_eq hb.pos]
        exact (hb.wf.post_perm 0).length_eq
      simp only at h1 h2 h3 h4 h5 h6
      unfold script
      refine ⟨by omega, by omega, by omega, by omega, by omega, fun hf => ?_⟩
      have := convertLoop_moves _ hl (hf ob nb ho hn S hS)
      rw [this]
      unfold script
      omega

/-- The total: at most six times the nodes of the larger page. -/
theorem C55_total (hold : old.Sound) (hnew : new.Sound) {ps : List Patch} (hd : diff hashNode old new = .ok ps)
    (hf : NoBelowSelf hashNode old new) : ps.length ≤ new.size + 5 * old.size := by
  obtain ⟨h1, h2, h3, h4, h5, h6, h7⟩ := C55_few_patches hold hnew hd
  have h7 := h7 hf
  have : ∀ ps : List Patch, ps.length = countSort .insert ps + countSort .remove ps + countSort .text ps +
      countSort .props ps + countSort .opaque ps + countSort .attribute ps + countSort .move ps := by
    intro ps
    induction ps with
    | nil => rfl
    | cons P ps ih =>
      have hc : ∀ k, countSort k (P :: ps) = countSort k [P] + countSort k ps := fun k => countSort_append k [P] ps
      have h1 : countSort .insert [P] + countSort .remove [P] + countSort .text [P] +
          countSort .props [P] + countSort .opaque [P] + countSort .attribute [P] + countSort .move [P] = 1 := by
        cases P <;> rfl
      rw [List.length_cons]
      simp only [hc]
      omega
  rw [this ps]
  omega

/-- Moves and insertions between the two pages of C52: the bounds are not about empty lists. -/
example : (Document.ofForest sections1).Sound ∧ (Document.ofForest sections2).Sound ∧
    NoBelowSelf Shape.node (.ofForest sections1) (.ofForest sections2) ∧
    (match diff Shape.node (.ofForest sections1) (.ofForest sections2) with
      | .ok ps => decide (0 < countSort .move ps) && decide (0 < (ps.flatMap Patch.nodes).length)
      | .error _ => false) = true := by
  refine ⟨ofForest_sound _ (by decide +kernel), ofForest_sound _ (by decide +kernel), ?_, by decide +kernel⟩
  intro ob nb ho hn
  have h1 : (Document.ofForest sections1).body = some 2 := by decide +kernel
  have h2 : (Document.ofForest sections2).body = some 2 := by decide +kernel
  rw [h1] at ho; rw [h2] at hn
  cases ho; cases hn
  exact noMoveBelowSelf_of_movesSafe (by decide +kernel)

end Hotmeal
