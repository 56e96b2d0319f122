import Verif.Lemmas.Stay

set_option autoImplicit false
set_option linter.unusedSectionVars false

/-!
# The bottom-up phase on two trees of the same structure
-/

namespace Hotmeal

variable {H : Type} [DecidableEq H] {hashNode : HKind → Option Str → List H → H} {A B : Arena TData}
  {ra rb : Nat}

theorem length_le_of_nodup_subset {l m : List Nat} (hl : l.Nodup) (h : ∀ x ∈ l, x ∈ m) :
    l.length ≤ m.length := by
  induction l generalizing m with
  | nil => simp
  | cons x l ih =>
    rw [List.nodup_cons] at hl
    have hx := h x (by simp)
    have h2 : ∀ y ∈ l, y ∈ m.erase x := by
      intro y hy
      rw [List.mem_erase_of_ne (by rintro rfl; exact hl.1 hy)]
      exact h y (by simp [hy])
    have h1 := ih hl.2 h2
    rw [List.length_erase_of_mem hx] at h1
    have := List.length_pos_of_mem hx
    simp only [List.length_cons]
    omega

theorem Arena.Alike.size_eq {R : TData → TData → Prop} (hA : A.WF) (hB : B.WF) {a b : Nat}
    (h : Arena.Alike R A B a b) : (A.descendants a).length = (B.descendants b).length := by
  induction h with
  | @node n m _ len kids ih =>
    rw [Hotmeal.size_eq hA, Hotmeal.size_eq hB]
    congr 2
    apply List.ext_getElem?
    intro i
    rw [List.getElem?_map, List.getElem?_map]
    cases h1 : (A.children n)[i]? with
    | none =>
      have : (B.children m)[i]? = none := by
        rw [List.getElem?_eq_none_iff] at h1 ⊢; omega
      rw [this]; rfl
    | some c =>
      cases h2 : (B.children m)[i]? with
      | none =>
        rw [List.getElem?_eq_none_iff] at h2
        have := (List.getElem?_eq_some_iff.1 h1).1
        omega
      | some d => exact congrArg some (ih i c d h1 h2)

variable (hashNode A B ra rb) in
/-- At least half of the nodes have unchanged subtrees. -/
def MostlyKept : Prop := ∃ l : List Nat, l.Nodup ∧
  (∀ x ∈ l, ∃ y, Corr A B ra rb x y ∧
    (DiffTree.ofArena hashNode A ra).hash x = (DiffTree.ofArena hashNode B rb).hash y) ∧
  (A.descendants ra).length ≤ 2 * l.length

namespace Settled

variable (hA : A.WF) (hB : B.WF) (hs : Settled hashNode A B ra rb)
include hA hB hs

theorem free_of {M : Matching} (hM : M.Good (Corr A B ra rb)) {a b : Nat} (hc : Corr A B ra rb a b)
    (h : M.containsA a = false) : M.containsB b = false := by
  rw [Matching.containsA_false] at h
  rw [Matching.containsB_false]
  cases e : M.getA b with
  | none => rfl
  | some x =>
    have hm := (hM.getA _ _).1 e
    have := hc.funA hA hB x (hM.rel _ _ hm)
    subst this
    rw [(hM.getB _ _).2 hm] at h; cases h

theorem not_insideA (n : Nat) : ¬ n ∈ opaqueDescendants (DiffTree.ofArena hashNode A ra) := by
  rw [mem_opaqueDescendants hashNode A ra hA]
  rintro ⟨o, h1, h2, _⟩
  have := hs.clearA hA hB h1
  rw [show (A.data o).props.isOpaque = false from this] at h2
  cases h2

theorem not_insideB (n : Nat) : ¬ n ∈ opaqueDescendants (DiffTree.ofArena hashNode B rb) := by
  rw [mem_opaqueDescendants hashNode B rb hB]
  rintro ⟨o, h1, h2, _⟩
  have := hs.clearB hA hB h1
  rw [show (B.data o).props.isOpaque = false from this] at h2
  cases h2

/-- Below a matched parent the node at the same position is found. -/
theorem position {M : Matching} (hM : M.Good (Corr A B ra rb)) {p q i a b : Nat} (hc : Corr A B ra rb p q)
    (ha : (A.children p)[i]? = some a) (hb : (B.children q)[i]? = some b)
    (hf : M.containsA a = false) :
    pass1Position (DiffTree.ofArena hashNode A ra) (DiffTree.ofArena hashNode B rb) Config.diff M a q =
      some b := by
  have hab : Corr A B ra rb a b := .child hc (hc.alike hs.alike).similar.clear ha hb
  have hsim := (hab.alike hs.alike).similar
  have hp := (hA.mem_iff _ _).1 (List.mem_of_getElem? ha)
  have hq := (hB.mem_iff _ _).1 (List.mem_of_getElem? hb)
  have hposA : (DiffTree.ofArena hashNode A ra).position a = i := by
    show (match A.parent a with | none => 0 | some p => Arena.posIn (A.children p) a) = i
    rw [hp]; exact posIn_getElem (hA.nodup p) ha
  have hposB : ∀ x ∈ B.children q, (DiffTree.ofArena hashNode B rb).position x =
      Arena.posIn (B.children q) x := by
    intro x hx
    show (match B.parent x with | none => 0 | some p => Arena.posIn (B.children p) x) = _
    rw [(hB.mem_iff _ _).1 hx]
  have hbm : b ∈ B.children q := List.mem_of_getElem? hb
  have hbl : b ∈ (B.children q).filter fun b => !M.containsB b &&
      (DiffTree.ofArena hashNode B rb).kind b == (DiffTree.ofArena hashNode A ra).kind a := by
    rw [List.mem_filter]
    refine ⟨hbm, ?_⟩
    rw [hs.free_of hA hB hM hab hf]
    have : (DiffTree.ofArena hashNode B rb).kind b = (DiffTree.ofArena hashNode A ra).kind a := hsim.kind.symm
    simp [this]
  have hbp : ((DiffTree.ofArena hashNode B rb).position b == (DiffTree.ofArena hashNode A ra).position a &&
      (((DiffTree.ofArena hashNode A ra).props a).similarity ((DiffTree.ofArena hashNode B rb).props b)).ge
        Config.diff.threshold) = true := by
    rw [hposA, hposB b hbm, posIn_getElem (hB.nodup q) hb]
    simp only [beq_self_eq_true, Bool.true_and]
    exact hsim.props
  unfold pass1Position
  show ((B.children q).filter _).find? _ = _
  cases e : ((B.children q).filter fun b => !M.containsB b &&
      (DiffTree.ofArena hashNode B rb).kind b == (DiffTree.ofArena hashNode A ra).kind a).find? (fun b =>
      (DiffTree.ofArena hashNode B rb).position b == (DiffTree.ofArena hashNode A ra).position a &&
      (((DiffTree.ofArena hashNode A ra).props a).similarity ((DiffTree.ofArena hashNode B rb).props b)).ge
        Config.diff.threshold) with
  | none =>
    rw [List.find?_eq_none] at e
    exact absurd hbp (e b hbl)
  | some x =>
    have h1 := List.find?_some e
    have h2 := (List.mem_filter.1 (List.mem_of_find?_eq_some e)).1
    simp only [Bool.and_eq_true, beq_iff_eq] at h1
    rw [hposA, hposB x h2] at h1
    have := Arena.getElem?_posIn h2
    rw [h1.1, hb] at this
    exact this.symm

/-- The roots are found by their descendants. -/
theorem roots {M0 M : Matching} (hM : M.Good (Corr A B ra rb)) (h0 : ∀ p ∈ M0.pairs, p ∈ M.pairs)
    (hM0 : M0.Good (Corr A B ra rb)) (hd : DoneA hashNode A B ra rb M0 ra) (hpa : A.parent ra = none)
    (hone : ∀ b, B.Anc rb b → (B.data b).kind = (A.data ra).kind → b = rb)
    (hk : MostlyKept hashNode A B ra rb) (hf : M.containsA ra = false) :
    pass1Dice (DiffTree.ofArena hashNode A ra) (DiffTree.ofArena hashNode B rb) Config.diff
      (bByKind (DiffTree.ofArena hashNode B rb) M0
        (opaqueDescendants (DiffTree.ofArena hashNode B rb))) M ra = M.add ra rb := by
  have hsim := hs.alike.similar
  have hfB := hs.free_of hA hB hM .root hf
  have hf0 : M0.containsA ra = false := by
    rw [Matching.containsA_false] at hf ⊢
    cases e : M0.getB ra with
    | none => rfl
    | some y => rw [(hM.getB _ _).2 (h0 _ ((hM0.getB _ _).1 e))] at hf; cases hf
  have hfB0 := hs.free_of hA hB hM0 .root hf0
  have hlist : bByKind (DiffTree.ofArena hashNode B rb) M0
      (opaqueDescendants (DiffTree.ofArena hashNode B rb)) ((DiffTree.ofArena hashNode A ra).kind ra) =
      [rb] := by
    unfold bByKind
    show (B.descendants rb).filter _ = _
    have hnd := hB.descendants_nodup rb
    have hmem := hB.mem_descendants rb
    rw [hB.descendants_flatMap] at hnd hmem ⊢
    rw [List.nodup_cons] at hnd
    rw [List.filter_cons, if_pos]
    · congr 1
      rw [List.filter_eq_nil_iff]
      intro x hx hx'
      simp only [Bool.and_eq_true, beq_iff_eq] at hx'
      have := hone x ((hmem x).1 (List.mem_cons_of_mem _ hx)) hx'.2
      subst this
      exact hnd.1 hx
    · have h1 := hs.not_insideB hA hB rb
      have h2 : (DiffTree.ofArena hashNode B rb).kind rb = (DiffTree.ofArena hashNode A ra).kind ra :=
        hsim.kind.symm
      simp [hfB0, h1, h2]
  have hcc : (DiffTree.ofArena hashNode B rb).childCount rb ≠ 0 := by
    intro h
    have hB0 : B.children rb = [] := List.length_eq_zero_iff.1 h
    have hA0 : A.children ra = [] := by
      cases hs.alike with | node _ len _ => rw [hB0] at len; exact List.length_eq_zero_iff.1 len
    obtain ⟨l, _, h2, h3⟩ := hk
    rw [size_eq hA] at h3
    cases l with
    | nil => simp at h3
    | cons x l =>
      obtain ⟨y, hy1, hy2⟩ := h2 x (by simp)
      rcases Arena.Anc.first (hy1.ancA hA) with rfl | ⟨c, hc, _⟩
      · have := hd x y .refl hy1 hy2
        rw [Matching.containsA_false, (hM0.getB _ _).2 this] at hf0
        cases hf0
      · rw [← hA.mem_iff, hA0] at hc; cases hc
  have hanc : ancestryCompatible (DiffTree.ofArena hashNode A ra) (DiffTree.ofArena hashNode B rb) M ra rb =
      true := by
    unfold ancestryCompatible
    have e1 : (DiffTree.ofArena hashNode A ra).parent ra = none := hpa
    simp only [e1, Bool.true_and]
    cases e2 : (DiffTree.ofArena hashNode B rb).parent rb with
    | none => rfl
    | some q =>
      simp only
      cases e3 : M.getA q with
      | none => rfl
      | some p =>
        have := (hM.rel _ _ ((hM.getA _ _).1 e3)).ancB hB
        exact absurd this (not_anc_parent hB e2)
  have hdice : (dice (DiffTree.ofArena hashNode A ra) (DiffTree.ofArena hashNode B rb) M ra rb).ge ⟨1, 2⟩ =
      true := by
    obtain ⟨l, h1, h2, h3⟩ := hk
    unfold dice
    have hsz := hs.alike.size_eq hA hB
    have hpos := size_eq hA ra
    have hne : ((DiffTree.ofArena hashNode A ra).descendants ra).isEmpty = false := by
      cases e : (DiffTree.ofArena hashNode A ra).descendants ra with
      | nil => rw [show A.descendants ra = [] from e] at hpos; simp at hpos
      | cons _ _ => rfl
    simp only [hne, Bool.false_and, Bool.false_eq_true, if_false]
    have e1 : ((DiffTree.ofArena hashNode A ra).descendants ra).length = (A.descendants ra).length := rfl
    have e2 : ((DiffTree.ofArena hashNode B rb).descendants rb).length = (B.descendants rb).length := rfl
    have hge : ∀ n : Nat, l.length ≤ n → Score.ge ⟨2 * n, ((DiffTree.ofArena hashNode A ra).descendants
        ra).length + ((DiffTree.ofArena hashNode B rb).descendants rb).length⟩ ⟨1, 2⟩ = true := by
      intro n hn
      simp only [Score.ge, decide_eq_true_eq]
      omega
    apply hge
    apply length_le_of_nodup_subset h1
    intro x hx
    obtain ⟨y, hy1, hy2⟩ := h2 x hx
    rw [List.mem_filter]
    refine ⟨(hA.mem_descendants _ _).2 (hy1.ancA hA), ?_⟩
    rw [(hM.getB _ _).2 (h0 _ (hd x y (hy1.ancA hA) hy1 hy2))]
    have : y ∈ (DiffTree.ofArena hashNode B rb).descendants rb :=
      (hB.mem_descendants _ _).2 (hy1.ancB hB)
    simp [this]
  unfold pass1Dice
  rw [hlist]
  simp only [diceBest]
  rw [if_neg (by simp [hfB]), if_neg hcc, if_neg (by simp [hanc]), if_neg (by
    have : (((DiffTree.ofArena hashNode A ra).props ra).similarity
      ((DiffTree.ofArena hashNode B rb).props rb)).ge Config.diff.threshold = true := hsim.props
    simp [this]), if_pos]
  show ((dice _ _ _ _ _).ge ⟨1, 2⟩ && true) = true
  rw [hdice]; rfl

/-- Pass 1 matches every node with the node at its place. -/
theorem pass1_spec {M0 : Matching} 
    (hM0 : M0.Good (Corr A B ra rb)) (hd : DoneA hashNode A B ra rb M0 ra) (hpa : A.parent ra = none)
    (hone : ∀ b, B.Anc rb b → (B.data b).kind = (A.data ra).kind → b = rb)
    (hk : MostlyKept hashNode A B ra rb) : ∀ (l2 l1 : List Nat) (M : Matching),
      A.descendants ra = l1 ++ l2 → M.Good (Corr A B ra rb) → (∀ p ∈ M0.pairs, p ∈ M.pairs) →
      (∀ x ∈ l1, M.containsA x = true) →
      (l2.foldl (pass1Step (DiffTree.ofArena hashNode A ra) (DiffTree.ofArena hashNode B rb) Config.diff
        (opaqueDescendants (DiffTree.ofArena hashNode A ra)) (bByKind (DiffTree.ofArena hashNode B rb) M0
        (opaqueDescendants (DiffTree.ofArena hashNode B rb)))) M).Good (Corr A B ra rb) ∧
      ∀ x, A.Anc ra x → (l2.foldl (pass1Step (DiffTree.ofArena hashNode A ra)
        (DiffTree.ofArena hashNode B rb) Config.diff
        (opaqueDescendants (DiffTree.ofArena hashNode A ra)) (bByKind (DiffTree.ofArena hashNode B rb) M0
        (opaqueDescendants (DiffTree.ofArena hashNode B rb)))) M).containsA x = true := by
  intro l2
  induction l2 with
  | nil =>
    intro l1 M e hM _ h1
    refine ⟨hM, fun x hx => h1 x ?_⟩
    rw [List.append_nil] at e
    rw [← e]
    exact (hA.mem_descendants _ _).2 hx
  | cons a l2 ih =>
    intro l1 M e hM h0 h1
    rw [List.foldl_cons]
    have haa : A.Anc ra a := by
      rw [← hA.mem_descendants, e]; simp
    obtain ⟨b, hb⟩ := corr_allA hA hs.alike haa
    have hstep : ∃ M', pass1Step (DiffTree.ofArena hashNode A ra) (DiffTree.ofArena hashNode B rb)
        Config.diff (opaqueDescendants (DiffTree.ofArena hashNode A ra))
        (bByKind (DiffTree.ofArena hashNode B rb) M0
        (opaqueDescendants (DiffTree.ofArena hashNode B rb))) M a = M' ∧ M'.Good (Corr A B ra rb) ∧
        (∀ p ∈ M.pairs, p ∈ M'.pairs) ∧ M'.containsA a = true := by
      by_cases hf : M.containsA a = true
      · refine ⟨M, ?_, hM, fun _ h => h, hf⟩
        unfold pass1Step
        rw [if_pos (by simp [hf])]
      · have hf' : M.containsA a = false := by simpa using hf
        have hfB := hs.free_of hA hB hM hb hf'
        refine ⟨M.add a b, ?_, hM.add hf' hfB hb, fun p hp => ?_, ?_⟩
        · unfold pass1Step
          rw [if_neg (by simp [hf', hs.not_insideA hA hB a])]
          rcases hb.inv hA hB with ⟨rfl, rfl⟩ | ⟨p, q, i, hc, hp, hq, ha', hb'⟩
          · have e1 : (DiffTree.ofArena hashNode A a).parent a = none := hpa
            simp only [e1, Option.bind_none]
            exact hs.roots hA hB hM h0 hM0 hd hpa hone hk hf'
          · have hpm : p ∈ l1 := by
              refine hA.descendants_parent_first ra l1 a l2 p e hp ?_
              rintro rfl
              rw [hpa] at hp; cases hp
            have hpc := h1 p hpm
            have e1 : (DiffTree.ofArena hashNode A ra).parent a = some p := hp
            have e2 : M.getB p = some q := by
              cases e3 : M.getB p with
              | none =>
                have := Matching.containsA_false.2 e3
                rw [this] at hpc; cases hpc
              | some q' => rw [hc.funB hA hB q' (hM.rel _ _ ((hM.getB _ _).1 e3))]
            simp only [e1, Option.bind_some, e2]
            rw [hs.position hA hB hM hc ha' hb' hf']
        · show p ∈ M.pairs ++ [(a, b)]
          simp [hp]
        · simp [Matching.containsA, Matching.add, Arena.upd]
    obtain ⟨M', e', hM', hk', hc'⟩ := hstep
    rw [e']
    refine ih (l1 ++ [a]) M' (by rw [e]; simp) hM' (fun p hp => hk' p (h0 p hp)) ?_
    intro x hx
    rw [List.mem_append, List.mem_singleton] at hx
    rcases hx with hx | rfl
    · have := h1 x hx
      cases e3 : M.getB x with
      | none => rw [Matching.containsA_false.2 e3] at this; cases this
      | some y =>
        have := (hM'.getB _ _).2 (hk' _ ((hM.getB _ _).1 e3))
        simp only [Matching.getB] at this
        simp [Matching.containsA, this]
    · exact hc'

/-- The matching used by `diff`: the nodes at the same place. -/
theorem diffMatching_spec (hpa : A.parent ra = none)
    (hone : ∀ b, B.Anc rb b → (B.data b).kind = (A.data ra).kind → b = rb)
    (hk : MostlyKept hashNode A B ra rb) :
    (diffMatching (DiffTree.ofArena hashNode A ra) (DiffTree.ofArena hashNode B rb)).Good
      (Corr A B ra rb) ∧
    ∀ a b, (a, b) ∈ (diffMatching (DiffTree.ofArena hashNode A ra)
      (DiffTree.ofArena hashNode B rb)).pairs ↔ Corr A B ra rb a b := by
  obtain ⟨M0, htd, hM0, hd⟩ := hs.topDown_spec hA hB
  obtain ⟨hM, hall⟩ := hs.pass1_spec hA hB hM0 hd hpa hone hk (A.descendants ra) [] M0 rfl hM0
    (fun _ h => h) (by simp)
  generalize hM' : (A.descendants ra).foldl (pass1Step (DiffTree.ofArena hashNode A ra)
    (DiffTree.ofArena hashNode B rb) Config.diff (opaqueDescendants (DiffTree.ofArena hashNode A ra))
    (bByKind (DiffTree.ofArena hashNode B rb) M0
      (opaqueDescendants (DiffTree.ofArena hashNode B rb)))) M0 = M at hM hall
  have hcm : computeMatching (DiffTree.ofArena hashNode A ra) (DiffTree.ofArena hashNode B rb)
      Config.diff = M := by
    unfold computeMatching bottomUp
    rw [htd]
    simp only
    rw [show (DiffTree.ofArena hashNode A ra).iter = A.descendants ra from rfl, hM']
    apply foldl_id
    intro a ha
    unfold pass2Step
    rw [if_pos (by rw [hall a ((hA.mem_descendants _ _).1 ha)]; rfl)]
  have hdm : diffMatching (DiffTree.ofArena hashNode A ra) (DiffTree.ofArena hashNode B rb) = M := by
    unfold diffMatching forceRoots
    rw [hcm, if_neg]
    rintro ⟨_, h⟩
    exact h (hall ra .refl)
  rw [hdm]
  refine ⟨hM, fun a b => ⟨hM.rel a b, fun hc => ?_⟩⟩
  have h1 := hall a (hc.ancA hA)
  cases e : M.getB a with
  | none => rw [Matching.containsA_false.2 e] at h1; cases h1
  | some y =>
    have h2 := (hM.getB _ _).1 e
    rw [hc.funB hA hB y (hM.rel _ _ h2)]
    exact h2

end Settled

/-- If the nodes at the same place are matched, the script changes texts and attributes only. -/
theorem script_corr (hA : A.WF) (hB : B.WF) (hra : ra < A.next) (hpa : A.parent ra = none)
    (hr : Arena.Alike TData.Similar A B ra rb) {M : Matching} (hgood : M.Good (Corr A B ra rb))
    (hp : ∀ a b, (a, b) ∈ M.pairs ↔ Corr A B ra rb a b) (op : EditOp)
    (hop : op ∈ scriptOf hashNode A B ra rb M) :
    (∃ a b ch, op = .updateProps a b ch) ∨ ∃ a b t, op = .setText a b t := by
  cases op with
  | updateProps a b ch => exact .inl ⟨a, b, ch, rfl⟩
  | setText a b t => exact .inr ⟨a, b, t, rfl⟩
  | insert b pb pos k =>
    exfalso
    rw [C10_inserts_are_the_unmatched hB] at hop
    obtain ⟨h1, h2, h3, _⟩ := hop
    obtain ⟨a, ha⟩ := corr_allB hB hr h1
    rw [(hgood.getA _ _).2 ((hp _ _).2 ha)] at h2; cases h2
  | delete a =>
    exfalso
    rw [C11_deletes_are_the_unmatched hA hra] at hop
    obtain ⟨h1, h2, h3⟩ := hop
    obtain ⟨b, hb⟩ := corr_allA hA hr h1
    rw [(hgood.getB _ _).2 ((hp _ _).2 hb)] at h2; cases h2
  | move a b pb pos =>
    exfalso
    rw [C12_moves_exactly_when_needed hA hB] at hop
    obtain ⟨h1, _, _, h4, h5, pa, h6, h7⟩ := hop
    cases (hp _ _).1 h1 with
    | root => rw [hpa] at h6; cases h6
    | @child p q i _ _ hc ho ha hb =>
      have e1 := (hA.mem_iff _ _).1 (List.mem_of_getElem? ha)
      have e2 := (hB.mem_iff _ _).1 (List.mem_of_getElem? hb)
      rw [e1] at h6; cases h6
      rw [e2] at h4; cases h4
      unfold AtIndex at h5 h7
      simp only [e2] at h5
      simp only [e1] at h7
      rcases h7 with h7 | h7
      · exact h7 ((hgood.getB _ _).2 ((hp _ _).2 hc))
      · have := List.nodup_getElem?_inj (hB.nodup _) hb h5
        subst this
        exact h7 ha

end Hotmeal
