import Verif.Props.Describe
import Verif.Lemmas.Unique

set_option autoImplicit false
set_option linter.unusedSectionVars false

/-!
# C71: the crate `cinereus` on its own needs matched roots

`diff` of hotmeal puts the pair of roots into the matching when the matcher has not found it. A user of
`diff_trees` (cinereus/src/lib.rs:79-86) gets the script for the matching as it is.
-/

namespace Hotmeal

variable {H : Type} [DecidableEq H]
variable {hashNode : HKind → Option Str → List H → H} {A B : Arena TData} {ra rb : Nat} {M : Matching}

/-- The tree that comes out has a node for the root of the new tree, and this node is below nothing. -/
def HasNewRoot (A : Arena TData) (ra rb : Nat) (pairs : List (Nat × Nat)) (ops : List EditOp) : Prop :=
  ∃ r, Stands pairs ops rb r ∧ Present A ra ops r ∧ ∀ q j, ¬ Placed A pairs ops r q j

/-- **C71**: the script says where the root of the new tree is exactly when the two roots are matched. -/
theorem C71_new_root_iff_roots_matched (hA : A.WF) (hB : B.WF) (hra : ra < A.next)
    (ha : A.parent ra = none) (hb : B.parent rb = none)
    (h1 : ∀ a b, M.getB a = some b ↔ (a, b) ∈ M.pairs) (h2 : ∀ a b, (a, b) ∈ M.pairs → A.Anc ra a) :
    HasNewRoot A ra rb M.pairs (scriptOf hashNode A B ra rb M) ↔ (ra, rb) ∈ M.pairs := by
  have nomove : ∀ {a b pb i}, .move a b pb i ∈ scriptOf hashNode A B ra rb M → (a, b) ∈ M.pairs ∧ B.parent b = some pb ∧
      A.parent a ≠ none := by
    intro a b pb i h
    obtain ⟨h1, _, _, h4, _, pa, h5, _⟩ := (C12_moves_exactly_when_needed hA hB M _ _ _ _).1 h
    exact ⟨h1, h4, by rw [h5]; exact Option.some_ne_none _⟩
  have nodel : ∀ {a b}, (a, b) ∈ M.pairs → .delete a ∉ scriptOf hashNode A B ra rb M := by
    intro a b hab hd
    have := ((C11_deletes_are_the_unmatched hA hra M a).1 hd).2.1
    rw [(h1 a b).2 hab] at this
    cases this
  constructor
  · rintro ⟨r, hs, hp, hn⟩
    cases hs with
    | fresh hi =>
      obtain ⟨_, _, _, h4, _⟩ := (C10_inserts_are_the_unmatched hB M _ _ _ _).1 hi
      rw [hb] at h4; cases h4
    | @kept a _ hab =>
      rcases (h2 a rb hab).cases' with e | ⟨p, hpa, _⟩
      · rw [e]; exact hab
      · obtain ⟨i, hi⟩ := List.getElem?_of_mem ((hA.mem_iff _ _).2 hpa)
        refine absurd (Placed.stay ?_ (nodel hab) hpa hi) (hn _ _)
        intro b pb j hm
        obtain ⟨hm1, hm2, _⟩ := nomove hm
        have e1 := (h1 _ _).2 hm1
        rw [(h1 _ _).2 hab] at e1
        cases e1
        rw [hb] at hm2; cases hm2
  · intro hab
    refine ⟨.kept ra, .kept hab, ⟨⟨.refl, ?_⟩, nodel hab⟩, ?_⟩
    · rintro ⟨o, h3, _, h4, h5⟩
      rcases h4.cases' with e | ⟨p, hp, _⟩
      · exact h5 e.symm
      · rw [ha] at hp; cases hp
    · intro q j hpl
      cases hpl with
      | move hm _ => exact (nomove hm).2.2 ha
      | stay _ _ h3 _ => rw [ha] at h3; cases h3

/-! ### When the roots are matched -/

section
variable (TA TB : DiffTree H)

theorem matchSubtrees_iter (l l' : List Nat) (k a b : Nat) (M : Matching) :
    matchSubtrees { TA with iter := l } { TB with iter := l' } k a b M = matchSubtrees TA TB k a b M := by
  induction k generalizing a b M with
  | zero => rfl
  | succ k ih =>
    unfold matchSubtrees
    simp only [ih]

theorem topDownLoop_iter (l l' : List Nat) (cfg : Config) (d k : Nat) (st : List (Nat × Nat)) (M : Matching) :
    topDownLoop { TA with iter := l } { TB with iter := l' } cfg d k st M = topDownLoop TA TB cfg d k st M := by
  induction k generalizing st M with
  | zero => cases st <;> rfl
  | succ k ih =>
    cases st with
    | nil => rfl
    | cons p st =>
      unfold topDownLoop
      simp only [ih, matchSubtrees_iter]
      rfl

/-- In the top-down phase, roots are matched with each other only. -/
theorem topDown_roots (cfg : Config)
    (hA : ∀ n, TA.root ∉ TA.children n) (hB : ∀ n, TB.root ∉ TB.children n) :
    (topDown TA TB cfg Matching.empty).Good fun a b => a = TA.root ↔ b = TB.root := by
  have cl : Closed { TA with iter := [] } { TB with iter := [] }
      (fun a b => a = TA.root ↔ b = TB.root) (fun a b => a = TA.root ↔ b = TB.root)
      (fun a b => a = TA.root ↔ b = TB.root) := by
    have ch : ∀ {a b a' b'}, a' ∈ TA.children a → b' ∈ TB.children b → (a' = TA.root ↔ b' = TB.root) := by
      intro a b a' b' h h'
      constructor
      · rintro rfl; exact absurd h (hA _)
      · rintro rfl; exact absurd h' (hB _)
    exact
      { sub := fun _ _ h => h
        subc := fun a b p _ hp => ch (List.of_mem_zip hp).1 (List.of_mem_zip hp).2
        cand := fun _ _ h _ _ => h
        candk := fun _ _ h _ => h
        candc := fun a b a' b' _ h h' => ch h h'
        root := ⟨fun _ => rfl, fun _ => rfl⟩
        glob := fun _ _ h => by cases h
        loc := fun _ _ _ _ h => by cases h }
  have := cl.toIf.topDownLoop cfg (matchDepth TA TB) (topDownFuel TA TB) [(TA.root, TB.root)] Matching.empty
    (fun _ => Matching.Good.empty _) (by
      intro p hp
      simp only [List.mem_singleton] at hp
      subst hp; exact ⟨fun _ => rfl, fun _ => rfl⟩) fun _ _ => trivial
  rw [topDownLoop_iter] at this
  exact this

end

theorem root_not_inside {A : Arena TData} {r : Nat} (hA : A.WF) (hr : A.parent r = none) :
    r ∉ opaqueDescendants (DiffTree.ofArena hashNode A r) := by
  rw [mem_opaqueDescendants hashNode A r hA]
  rintro ⟨o, _, _, h, hne⟩
  rcases h.cases' with e | ⟨p, hp, _⟩
  · exact hne e.symm
  · rw [hr] at hp; cases hp

theorem filter_unique {l : List Nat} (hl : l.Nodup) {r : Nat} (hr : r ∈ l) {p : Nat → Bool} (hp : p r = true)
    (hu : ∀ b ∈ l, p b = true → b = r) : l.filter p = [r] := by
  induction l with
  | nil => cases hr
  | cons x l ih =>
    rw [List.nodup_cons] at hl
    by_cases e : x = r
    · subst e
      rw [List.filter_cons_of_pos hp]
      congr 1
      rw [List.filter_eq_nil_iff]
      intro b hb hpb
      have := hu b (List.mem_cons_of_mem _ hb) hpb
      subst this
      exact hl.1 hb
    · have hx : p x = false := by
        cases h : p x with
        | false => rfl
        | true => exact absurd (hu x (by simp) h) e
      rw [List.filter_cons_of_neg (by simp [hx])]
      exact ih hl.2 (by
        rcases List.mem_cons.1 hr with h | h
        · exact absurd h.symm e
        · exact h) fun b hb => hu b (List.mem_cons_of_mem _ hb)

/-- **C71**: the roots are matched, whatever the configuration, when they are of the same kind, no other node of the
new tree is of this kind, their attributes are similar enough, and it is not the case that only the new root has no
children. -/
theorem C71_roots_meet_partial (hA : A.WF) (hB : B.WF) (ha : A.parent ra = none) (hb : B.parent rb = none)
    (cfg : Config) (hk : (A.data ra).kind = (B.data rb).kind)
    (hu : ∀ b, B.Anc rb b → (B.data b).kind = (B.data rb).kind → b = rb)
    (hs : ((A.data ra).props.similarity (B.data rb).props).ge cfg.threshold = true)
    (hch : B.children rb ≠ [] ∨ A.children ra = []) :
    (ra, rb) ∈ (computeMatching (DiffTree.ofArena hashNode A ra) (DiffTree.ofArena hashNode B rb) cfg).pairs := by
  have nc : ∀ {A : Arena TData} {r : Nat}, A.WF → A.parent r = none → ∀ n, r ∉ A.children n := by
    intro A r hw hr n hm
    rw [(hw.mem_iff _ _).1 hm] at hr
    cases hr
  have g := topDown_roots (DiffTree.ofArena hashNode A ra) (DiffTree.ofArena hashNode B rb) cfg (nc hA ha) (nc hB hb)
  unfold computeMatching
  generalize topDown (DiffTree.ofArena hashNode A ra) (DiffTree.ofArena hashNode B rb) cfg Matching.empty = M0 at g
  have hi : (DiffTree.ofArena hashNode A ra).iter = ra :: (A.children ra).flatMap A.descendants :=
    hA.descendants_flatMap ra
  unfold bottomUp
  simp only
  rw [hi]
  generalize hr : (A.children ra).flatMap A.descendants = rest
  by_cases hm : (ra, rb) ∈ M0.pairs
  · refine foldl_inv (P := fun M : Matching => (ra, rb) ∈ M.pairs) _ _ ?_ fun M h a _ => pass2Step_keeps _ _ _ _ _ h
    exact foldl_inv (P := fun M : Matching => (ra, rb) ∈ M.pairs) _ _ hm fun M h a _ => pass1Step_keeps _ _ _ _ _ h
  · have fa : M0.containsA ra = false := by
      rw [Matching.containsA_false]
      cases e : M0.getB ra with
      | none => rfl
      | some b =>
        have h1 := (g.getB _ _).1 e
        have h2 : b = rb := (g.rel _ _ h1).1 rfl
        rw [h2] at h1
        exact absurd h1 hm
    have fb : M0.containsB rb = false := by
      rw [Matching.containsB_false]
      cases e : M0.getA rb with
      | none => rfl
      | some a =>
        have h1 := (g.getA _ _).1 e
        have h2 : a = ra := (g.rel _ _ h1).2 rfl
        rw [h2] at h1
        exact absurd h1 hm
    have oa := root_not_inside (hashNode := hashNode) hA ha
    have ob := root_not_inside (hashNode := hashNode) hB hb
    have hby : bByKind (DiffTree.ofArena hashNode B rb) M0 (opaqueDescendants (DiffTree.ofArena hashNode B rb))
        ((DiffTree.ofArena hashNode A ra).kind ra) = [rb] := by
      unfold bByKind
      refine filter_unique (hB.descendants_nodup rb) ((hB.mem_descendants _ _).2 .refl) ?_ ?_
      · simp only [fb, ob, decide_false, Bool.not_false, Bool.and_self, Bool.true_and, beq_iff_eq]
        exact hk.symm
      · intro b hb' h
        simp only [Bool.and_eq_true, beq_iff_eq] at h
        exact hu b ((hB.mem_descendants _ _).1 hb') (h.2.trans hk)
    have pa : (DiffTree.ofArena hashNode A ra).parent ra = none := ha
    have pb : (DiffTree.ofArena hashNode B rb).parent rb = none := hb
    have hs' : (((DiffTree.ofArena hashNode A ra).props ra).similarity
      ((DiffTree.ofArena hashNode B rb).props rb)).ge cfg.threshold = true := hs
    have mem : ∀ M : Matching, (ra, rb) ∈ (M.add ra rb).pairs := fun M => List.mem_append.2 (.inr (by simp))
    rw [List.foldl_cons, List.foldl_cons]
    by_cases hcb : B.children rb = []
    · have hca : A.children ra = [] := hch.resolve_left fun h => h hcb
      have hcb' : (DiffTree.ofArena hashNode B rb).childCount rb = 0 := by
        show (B.children rb).length = 0
        rw [hcb]; rfl
      have hca' : (DiffTree.ofArena hashNode A ra).childCount ra = 0 := by
        show (A.children ra).length = 0
        rw [hca]; rfl
      have hrest : rest = [] := by rw [← hr, hca]; rfl
      subst hrest
      simp only [List.foldl_nil]
      have e1 : pass1Step (DiffTree.ofArena hashNode A ra) (DiffTree.ofArena hashNode B rb) cfg
          (opaqueDescendants (DiffTree.ofArena hashNode A ra))
          (bByKind (DiffTree.ofArena hashNode B rb) M0 (opaqueDescendants (DiffTree.ofArena hashNode B rb))) M0 ra = M0 := by
        unfold pass1Step pass1Dice
        simp [fa, oa, pa, hby, diceBest, fb, hcb']
      rw [e1]
      unfold pass2Step
      simp only [fa, oa, decide_false, Bool.or_self, Bool.false_eq_true, if_false, hca', ne_eq, not_true_eq_false, pa,
        Option.bind_none, hby]
      unfold pass2Global pass2Global
      simp only [fb, Bool.false_eq_true, if_false, hcb', ne_eq, not_true_eq_false, ancestryCompatible, pa, pb,
        Bool.and_self, Bool.not_true, Option.isNone_none, hs', if_true]
      split
      · split at *
        all_goals simp_all
      · split at *
        all_goals simp_all
    · have hcb' : (DiffTree.ofArena hashNode B rb).childCount rb ≠ 0 := by
        show (B.children rb).length ≠ 0
        exact fun h => hcb (List.length_eq_zero_iff.1 h)
      refine foldl_inv (P := fun M : Matching => (ra, rb) ∈ M.pairs) _ _ ?_ fun M h a _ => pass2Step_keeps _ _ _ _ _ h
      refine pass2Step_keeps _ _ _ _ _ ?_
      refine foldl_inv (P := fun M : Matching => (ra, rb) ∈ M.pairs) _ _ ?_ fun M h a _ => pass1Step_keeps _ _ _ _ _ h
      unfold pass1Step
      simp only [fa, oa, decide_false, Bool.or_self, Bool.false_eq_true, if_false, pa, Option.bind_none]
      unfold pass1Dice
      rw [hby]
      split
      · next b s h =>
        rcases ClosedIf.diceBest_mem _ _ _ _ _ _ h with h | ⟨h, _⟩
        · cases h
        · simp only [List.mem_singleton] at h
          subst h; exact mem _
      · simp only [pa, Option.isNone_none, if_true, List.find?_cons, fb, Bool.not_false, pb, hs', Bool.and_true,
          Nat.pos_of_ne_zero hcb', decide_true]
        exact mem _

/-! ### A tree that loses all children of its root -/

theorem diceBest_inner (TA TB : DiffTree H) (cfg : Config) (M : Matching) (a : Nat) (bs : List Nat)
    (best : Option (Nat × Score)) (r : Nat × Score) (h : diceBest TA TB cfg M a bs best = some r) :
    best = some r ∨ TB.childCount r.1 ≠ 0 := by
  induction bs generalizing best with
  | nil => exact .inl h
  | cons b bs ih =>
    unfold diceBest at h
    split at h
    · exact ih _ h
    · split at h
      · exact ih _ h
      · next hb =>
        split at h
        · exact ih _ h
        · split at h
          · exact ih _ h
          · simp only at h
            split at h <;> split at h <;>
              (rcases ih _ h with h1 | h1
               · first
                  | exact .inl h1
                  | (cases h1; exact .inr hb)
               · exact .inr h1)

/-- **C71** (violated): when all children of the root are removed, `diff_trees` deletes the root as well and says
nothing about the root of the new tree, whatever the configuration and the kinds. Only a childless old node can
stand for the new root. -/
theorem C71_emptied_tree_violated (hA : A.WF) (hB : B.WF) (hra : ra < A.next)
    (ha : A.parent ra = none) (hb : B.parent rb = none) (hc : NoCollisionFrom hashNode A ra B rb)
    (hoA : (A.data ra).props.isOpaque = false) (hoB : (B.data rb).props.isOpaque = false) (cfg : Config)
    (hca : A.children ra ≠ []) (hcb : B.children rb = []) :
    .delete ra ∈ diffTrees (DiffTree.ofArena hashNode A ra) (DiffTree.ofArena hashNode B rb) cfg ∧
    ¬ HasNewRoot A ra rb (computeMatching (DiffTree.ofArena hashNode A ra) (DiffTree.ofArena hashNode B rb) cfg).pairs
      (diffTrees (DiffTree.ofArena hashNode A ra) (DiffTree.ofArena hashNode B rb) cfg) := by
  have htd : topDown (DiffTree.ofArena hashNode A ra) (DiffTree.ofArena hashNode B rb) cfg Matching.empty =
      Matching.empty := by
    have nil : ∀ d k M, topDownLoop (DiffTree.ofArena hashNode A ra) (DiffTree.ofArena hashNode B rb) cfg d k [] M = M := by
      intro d k M; cases k <;> rfl
    have hh : (DiffTree.ofArena hashNode A ra).hash ra ≠ (DiffTree.ofArena hashNode B rb).hash rb := by
      intro e
      have := hc ra rb .refl .refl e
      rw [hA.shape_eq, hB.shape_eq, hcb] at this
      injection this with _ _ h
      exact hca (List.map_eq_nil_iff.1 h)
    have oa : (DiffTree.ofArena hashNode A ra).isOpaque ra = false := hoA
    have ob : (DiffTree.ofArena hashNode B rb).isOpaque rb = false := hoB
    have cb : (DiffTree.ofArena hashNode B rb).children rb = [] := hcb
    show topDownLoop _ _ cfg _ (_ + 1) [(ra, rb)] _ = _
    unfold topDownLoop
    have e : ((DiffTree.ofArena hashNode A ra).hash ra == (DiffTree.ofArena hashNode B rb).hash rb) = false := by
      simp [hh]
    simp only [nil, e, oa, ob, Bool.false_and, Bool.or_self, Bool.false_eq_true, if_false, childCandidates, cb,
      List.filter_nil, List.map_nil, List.append_nil]
    have : ∀ l : List Nat, (l.flatMap fun _ => ([] : List (Nat × Nat))) = [] := by
      intro l; induction l <;> simp_all
    rw [this]
    simp [nil]
  have leaf : ∀ p ∈ (computeMatching (DiffTree.ofArena hashNode A ra) (DiffTree.ofArena hashNode B rb) cfg).pairs,
      p.2 = rb → (DiffTree.ofArena hashNode A ra).childCount p.1 = 0 := by
    have ncb : ∀ n, rb ∉ (DiffTree.ofArena hashNode B rb).children n := by
      intro n hm
      rw [(hB.mem_iff _ _).1 hm] at hb
      cases hb
    have hcb' : (DiffTree.ofArena hashNode B rb).childCount rb = 0 := by
      show (B.children rb).length = 0
      rw [hcb]; rfl
    unfold computeMatching
    rw [htd]
    unfold bottomUp
    simp only
    have add : ∀ (M : Matching) (a b : Nat), (∀ p ∈ M.pairs, p.2 = rb →
        (DiffTree.ofArena hashNode A ra).childCount p.1 = 0) →
        (b = rb → (DiffTree.ofArena hashNode A ra).childCount a = 0) → ∀ p ∈ (M.add a b).pairs, p.2 = rb →
        (DiffTree.ofArena hashNode A ra).childCount p.1 = 0 := by
      intro M a b hM h p hp e
      rcases List.mem_append.1 hp with hp | hp
      · exact hM p hp e
      · simp only [List.mem_singleton] at hp
        subst hp; exact h e
    refine foldl_inv (P := fun M : Matching => ∀ p ∈ M.pairs, p.2 = rb →
        (DiffTree.ofArena hashNode A ra).childCount p.1 = 0) _ _ ?_ ?_
    · refine foldl_inv (P := fun M : Matching => ∀ p ∈ M.pairs, p.2 = rb →
        (DiffTree.ofArena hashNode A ra).childCount p.1 = 0) _ _ (fun p hp => by cases hp) ?_
      intro M hM a _
      have dice : ∀ f, ∀ p ∈ (pass1Dice (DiffTree.ofArena hashNode A ra) (DiffTree.ofArena hashNode B rb) cfg f M a).pairs,
          p.2 = rb → (DiffTree.ofArena hashNode A ra).childCount p.1 = 0 := by
        intro f
        unfold pass1Dice
        split
        · next b s h =>
          refine add _ _ _ hM ?_
          rintro rfl
          rcases diceBest_inner _ _ _ _ _ _ _ _ h with h | h
          · cases h
          · exact absurd hcb' h
        · split
          · split
            · next b h =>
              refine add _ _ _ hM ?_
              rintro rfl
              have := List.find?_some h
              simp only [hcb', Nat.lt_irrefl, decide_false, Bool.and_false, Bool.false_and] at this
              cases this
            · exact hM
          · exact hM
      unfold pass1Step
      split
      · exact hM
      · split
        · split
          · next b h =>
            refine add _ _ _ hM ?_
            rintro rfl
            have := List.mem_of_find?_eq_some h
            exact absurd (List.mem_filter.1 this).1 (ncb _)
          · exact dice _
        · exact dice _
    · intro M hM a _
      unfold pass2Step
      split
      · exact hM
      · split
        · exact hM
        · next hn =>
          split
          · exact add _ _ _ hM fun _ => by simpa using hn
          · exact hM
  have nm : ∀ b, (ra, b) ∉ (computeMatching (DiffTree.ofArena hashNode A ra) (DiffTree.ofArena hashNode B rb) cfg).pairs := by
    intro b hm
    have hbb := (C09_same_kind hashNode A B hA hB ra rb hc cfg ra b hm).2.2
    have e : b = rb := by
      have := (hB.mem_descendants rb b).2 hbb
      rw [hB.descendants_flatMap, hcb] at this
      simpa using this
    have := leaf _ hm e
    exact hca (List.length_eq_zero_iff.1 this)
  obtain ⟨h1, h2, _⟩ := C08_matching_one_to_one (DiffTree.ofArena hashNode A ra) (DiffTree.ofArena hashNode B rb) cfg
  constructor
  · refine (C11_deletes_are_the_unmatched hA hra _ ra).2 ⟨.refl, ?_, ?_⟩
    · cases e : (computeMatching (DiffTree.ofArena hashNode A ra) (DiffTree.ofArena hashNode B rb) cfg).getB ra with
      | none => rfl
      | some b => exact absurd ((h2 _ _).1 e) (nm b)
    · rw [← mem_opaqueDescendants hashNode A ra hA]
      exact root_not_inside hA ha
  · intro h
    exact nm rb ((C71_new_root_iff_roots_matched hA hB hra ha hb h2
      fun a b hab => (C09_same_kind hashNode A B hA hB ra rb hc cfg a b hab).2.1).1 h)

/-! ### Concrete cases -/

/-- The bodies of `ex1` and `ex2` meet the hypotheses of `C71_roots_meet_partial`. -/
example : (0, 0) ∈ (computeMatching (oldTree Shape.node (.ofForest ex1) 2) (oldTree Shape.node (.ofForest ex2) 2)
    Config.default).pairs := by
  obtain ⟨g, hg⟩ := buildTree_spec (.ofForest ex1) (ofForest_valid ex1 (by decide +kernel)).leafy 2
  obtain ⟨g', hg'⟩ := buildTree_spec (.ofForest ex2) (ofForest_valid ex2 (by decide +kernel)).leafy 2
  refine C71_roots_meet_partial hg.wf hg'.wf hg.root hg'.root _ (by decide +kernel) ?_ (by decide +kernel) (by decide +kernel)
  intro b hb
  have hm := (hg'.wf.mem_descendants 0 b).2 hb
  have : ∀ b ∈ (buildTree (.ofForest ex2) 2).descendants 0,
      ((buildTree (.ofForest ex2) 2).data b).kind = ((buildTree (.ofForest ex2) 2).data 0).kind → b = 0 := by
    decide +kernel
  exact this b hm

/-- A list with two items and an empty list of the same kind meet the hypotheses of `C71_emptied_tree_violated`; the
script deletes everything. -/
example : HasNewRoot (buildTree (.ofForest [ex "ul" [] [ex "li" [] [], ex "li" [] []]]) 3) 0 0
      (computeMatching (oldTree Shape.node (.ofForest [ex "ul" [] [ex "li" [] [], ex "li" [] []]]) 3)
        (oldTree Shape.node (.ofForest [ex "ul" [] []]) 3) Config.default).pairs
      (diffTrees (oldTree Shape.node (.ofForest [ex "ul" [] [ex "li" [] [], ex "li" [] []]]) 3)
        (oldTree Shape.node (.ofForest [ex "ul" [] []]) 3) Config.default) = False ∧
    diffTrees (oldTree Shape.node (.ofForest [ex "ul" [] [ex "li" [] [], ex "li" [] []]]) 3)
      (oldTree Shape.node (.ofForest [ex "ul" [] []]) 3) Config.default = [.delete 1, .delete 2, .delete 0] := by
  obtain ⟨g, hg⟩ := buildTree_spec (.ofForest [ex "ul" [] [ex "li" [] [], ex "li" [] []]])
    (ofForest_valid _ (by decide +kernel)).leafy 3
  obtain ⟨g', hg'⟩ := buildTree_spec (.ofForest [ex "ul" [] []]) (ofForest_valid _ (by decide +kernel)).leafy 3
  refine ⟨eq_false (C71_emptied_tree_violated hg.wf hg'.wf hg.pos hg.root hg'.root (noCollision_shape _ _ _)
    (by decide +kernel) (by decide +kernel) _ (by decide +kernel) (by decide +kernel)).2, by decide +kernel⟩

/-- The other direction works: a list that was empty keeps its root. -/
example : diffTrees (oldTree Shape.node (.ofForest [ex "ul" [] []]) 3)
    (oldTree Shape.node (.ofForest [ex "ul" [] [ex "li" [] []]]) 3) Config.default = [.insert 1 0 0 (.element "li".toList .html)] := by
  decide +kernel

end Hotmeal
