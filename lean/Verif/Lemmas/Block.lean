import Verif.Lemmas.Unique
import Verif.Props.TextEdits

set_option autoImplicit false
set_option linter.unusedSectionVars false

/-!
# The matching of a block that stays in place
-/

namespace Hotmeal

variable {H : Type} [DecidableEq H] {hashNode : HKind → Option Str → List H → H}
  {A B : Arena TData} {ra rb : Nat}

/-- Matching two subtrees adds pairs of these subtrees only. -/
theorem matchSubtrees_within (hA : A.WF) (hB : B.WF) (k : Nat) : ∀ (a b : Nat) (M : Matching),
    ∀ p ∈ (matchSubtrees (DiffTree.ofArena hashNode A ra) (DiffTree.ofArena hashNode B rb) k a b M).pairs,
      p ∈ M.pairs ∨ (A.Anc a p.1 ∧ B.Anc b p.2) := by
  induction k with
  | zero => exact fun _ _ _ p hp => .inl hp
  | succ k ih =>
    intro a b M p hp
    unfold matchSubtrees at hp
    split at hp
    · exact .inl hp
    · have h0 : ∀ p ∈ (M.add a b).pairs, p ∈ M.pairs ∨ (A.Anc a p.1 ∧ B.Anc b p.2) := by
        intro p hp
        rcases List.mem_append.1 hp with hp | hp
        · exact .inl hp
        · rw [List.mem_singleton] at hp; subst hp; exact .inr ⟨.refl, .refl⟩
      simp only at hp
      split at hp
      · exact h0 p hp
      · refine foldl_inv (P := fun M' : Matching => ∀ p ∈ M'.pairs, p ∈ M.pairs ∨ (A.Anc a p.1 ∧ B.Anc b p.2))
          _ _ h0 (fun M' hM' (q : Nat × Nat) hq p hp => ?_) p hp
        rcases ih q.1 q.2 M' p hp with h | ⟨h1, h2⟩
        · exact hM' p h
        · have e1 := (hA.mem_iff _ _).1 (List.of_mem_zip hq).1
          have e2 := (hB.mem_iff _ _).1 (List.of_mem_zip hq).2
          exact .inr ⟨(Arena.Anc.step e1 .refl).trans h1, (Arena.Anc.step e2 .refl).trans h2⟩

variable (hashNode A B ra rb) in
/-- `x` and `y` are the children number `k` of the roots, they are equal in every respect, and the trees have
no node inside `x` or `y` that has the shape of a node outside of the other. Opaque and ordinary elements are of
different kinds, and an opaque element inside `x` or `y` is not of the kind of a node outside of the other. -/
structure Block (k x y : Nat) : Prop where
  rootA : (A.data ra).props.isOpaque = false
  rootB : (B.data rb).props.isOpaque = false
  opq : ∀ a b, A.Anc ra a → B.Anc rb b → (A.data a).kind = (B.data b).kind →
    (A.data a).props.isOpaque = (B.data b).props.isOpaque
  widgets : ∀ a b, A.Anc ra a → B.Anc rb b → (A.data a).kind = (B.data b).kind →
    (A.data a).props.isOpaque = true → (A.Anc x a ↔ B.Anc y b)
  hash : NoCollisionFrom hashNode A ra B rb
  kidA : (A.children ra)[k]? = some x
  kidB : (B.children rb)[k]? = some y
  same : Arena.Alike Eq A B x y
  apart : ∀ n m, A.Anc ra n → B.Anc rb m → A.shape n = B.shape m → (A.Anc x n ↔ B.Anc y m)

/-- Trees of the same shape in which opaque and ordinary elements are of different kinds. -/
theorem alike_of_shape (hA : A.WF) (hB : B.WF) (hk : ∀ a b, A.Anc ra a → B.Anc rb b →
      (A.data a).kind = (B.data b).kind → (A.data a).props.isOpaque = (B.data b).props.isOpaque)
    (a : Nat) : ∀ b, A.Anc ra a → B.Anc rb b →
    A.shape a = B.shape b → Arena.Alike (fun d e : TData => d.props.isOpaque = e.props.isOpaque) A B a b := by
  induction a using hA.induct_down with
  | step a ih =>
    intro b ha hb e
    rw [hA.shape_eq, hB.shape_eq] at e
    injection e with e1 _ e3
    refine .node ?_ ?_ ?_
    · exact hk a b ha hb e1
    · have := congrArg List.length e3
      simpa using this
    · intro i c d hc hd
      have e4 : ((A.children a).map A.shape)[i]? = ((B.children b).map B.shape)[i]? := by rw [e3]
      rw [List.getElem?_map, List.getElem?_map, hc, hd] at e4
      have hm := List.mem_of_getElem? hc
      exact ih c hm d (.step ((hA.mem_iff _ _).1 hm) ha)
        (.step ((hB.mem_iff _ _).1 (List.mem_of_getElem? hd)) hb) (Option.some.inj e4)

namespace Block

variable {k x y : Nat} (hA : A.WF) (hB : B.WF) (h : Block hashNode A B ra rb k x y)
include hA hB h

theorem parA : A.parent x = some ra := (hA.mem_iff _ _).1 (List.mem_of_getElem? h.kidA)
theorem parB : B.parent y = some rb := (hB.mem_iff _ _).1 (List.mem_of_getElem? h.kidB)

theorem shape_eq : A.shape x = B.shape y :=
  alike_hash' (hashNode := Shape.node) hA hB ra rb
    (h.same.mono fun _ _ e => ⟨by rw [e], by rw [e]⟩)

/-- A stack entry that concerns at most one of the two blocks. -/
def Outer (_ : Block hashNode A B ra rb k x y) (p : Nat × Nat) : Prop :=
  A.Anc ra p.1 ∧ B.Anc rb p.2 ∧ p.1 ≠ ra ∧ p.2 ≠ rb ∧ ¬ (A.Anc x p.1 ∧ B.Anc y p.2)

/-- What holds of the stack and the matching. -/
def Hold (s : List (Nat × Nat) × Matching) : Prop :=
  s.2.Good (fun _ _ => True) ∧
  ((∀ a b, Corr A B x y a b → (a, b) ∈ s.2.pairs) ∨
    ((∀ p ∈ s.2.pairs, ¬ A.Anc x p.1 ∧ ¬ B.Anc y p.2) ∧
      (∀ p ∈ s.1, p = (x, y) ∨ h.Outer p) ∧ (x, y) ∈ s.1))

theorem step {d : Nat} (hd : (A.descendants ra).length ≤ d) (s : List (Nat × Nat) × Matching)
    (hs : h.Hold s) :
    h.Hold (topDownStep (DiffTree.ofArena hashNode A ra) (DiffTree.ofArena hashNode B rb) Config.diff d s) := by
  obtain ⟨st, M⟩ := s
  obtain ⟨hM, hp⟩ := hs
  have hxr : A.Anc ra x := .step (h.parA hA hB) .refl
  have hyr : B.Anc rb y := .step (h.parB hA hB) .refl
  cases st with
  | nil => exact ⟨hM, hp⟩
  | cons q st =>
    obtain ⟨a, b⟩ := q
    simp only [topDownStep]
    rw [if_neg (show ¬ _ < Config.diff.minHeight from Nat.not_lt_zero _)]
    rcases hp with hp | ⟨hf, hst, hxy⟩
    · -- all pairs of the block are there already
      have hadd : ∀ M' : Matching, M'.Good (fun _ _ => True) → (∀ p ∈ M.pairs, p ∈ M'.pairs) →
          ∀ st', h.Hold (st', M') := fun M' hM' hk st' => ⟨hM', .inl fun a b hc => hk _ (hp a b hc)⟩
      split
      · exact hadd M hM (fun _ hp => hp) _
      · next hin =>
        split
        · refine hadd _ ?_ (matchSubtrees_keeps _ _ _ _) _
          exact (closed_true _ _).toIf.matchSubtrees d a b M (hM.toIf _) trivial fun _ _ => trivial
        · split
          · refine hadd _ ?_ ?_ _
            · split
              · exact hM.add (not_contains hin).2.1 (not_contains hin).2.2 trivial
              · exact hM
            · intro p hp
              split
              · exact M.pairs_add_sub a b p hp
              · exact hp
          · exact hadd M hM (fun _ hp => hp) _
    · have hst' : ∀ p ∈ st, p = (x, y) ∨ h.Outer p := fun p hp => hst p (List.mem_cons_of_mem _ hp)
      rcases hst (a, b) (by simp) with e | ⟨ha, hb, hna, hnb, hnot⟩
      · -- the block itself
        simp only [Prod.mk.injEq] at e
        obtain ⟨rfl, rfl⟩ := e
        have h1 : M.containsA a = false := by
          rw [Matching.containsA_false]
          cases e2 : M.getB a with
          | none => rfl
          | some z => exact absurd .refl (hf (a, z) ((hM.getB _ _).1 e2)).1
        have h2 : M.containsB b = false := by
          rw [Matching.containsB_false]
          cases e2 : M.getA b with
          | none => rfl
          | some z => exact absurd .refl (hf (z, b) ((hM.getA _ _).1 e2)).2
        have hs := h.shape_eq hA hB
        have hh := hash_of_shape (hashNode := hashNode) (ra := ra) (rb := rb) hA hB _ _ hs
        have hkind : (DiffTree.ofArena hashNode A ra).kind a = (DiffTree.ofArena hashNode B rb).kind b := by
          rw [hA.shape_eq, hB.shape_eq] at hs
          injection hs
        rw [if_neg (by rw [h1, h2]; exact Bool.false_ne_true),
          if_pos (by rw [hh, hkind]; simp)]
        refine ⟨(closed_true _ _).toIf.matchSubtrees d a b M (hM.toIf _) trivial fun _ _ => trivial, .inl ?_⟩
        intro a' b' hc
        refine (matchSubtrees_alike (R := Eq) (fun _ _ e => by rw [e]) hA hB ra rb a b d M h.same
          (Nat.le_trans (List.Sublist.length_le (hA.descendants_sublist hxr)) hd) hM hf (a', b')).2 (.inr hc)
      · have hne : (x, y) ≠ (a, b) := by
          intro e
          simp only [Prod.mk.injEq] at e
          exact hnot ⟨e.1 ▸ .refl, e.2 ▸ .refl⟩
        have hxy' : (x, y) ∈ st := by
          rcases List.mem_cons.1 hxy with e | e
          · exact absurd e hne
          · exact e
        have hax : ¬ A.Anc a x ∨ a = x := by
          by_cases e : a = x
          · exact .inr e
          · refine .inl fun e' => ?_
            rcases e'.cases' with e' | ⟨p, hp, hap⟩
            · exact e e'
            · rw [h.parA hA hB] at hp; cases hp
              rcases ha.cases' with e3 | ⟨p, hp, hrp⟩
              · exact hna e3.symm
              · exact not_anc_parent hA hp (hap.trans hrp)
        have hby : ¬ B.Anc b y ∨ b = y := by
          by_cases e : b = y
          · exact .inr e
          · refine .inl fun e' => ?_
            rcases e'.cases' with e' | ⟨p, hp, hap⟩
            · exact e e'
            · rw [h.parB hA hB] at hp; cases hp
              rcases hb.cases' with e3 | ⟨p, hp, hrp⟩
              · exact hnb e3.symm
              · exact not_anc_parent hB hp (hap.trans hrp)
        split
        · exact ⟨hM, .inr ⟨hf, hst', hxy'⟩⟩
        · next hin =>
          split
          · next heq =>
            simp only [Bool.and_eq_true, beq_iff_eq] at heq
            have e := h.hash a b ha hb heq.1
            have hi := h.apart a b ha hb e
            have hnx : ¬ A.Anc x a := fun e => hnot ⟨e, hi.1 e⟩
            have hny : ¬ B.Anc y b := fun e => hnot ⟨hi.2 e, e⟩
            refine ⟨(closed_true _ _).toIf.matchSubtrees d a b M (hM.toIf _) trivial fun _ _ => trivial,
              .inr ⟨fun p hp => ?_, hst', hxy'⟩⟩
            rcases matchSubtrees_within hA hB d a b M p hp with hp | ⟨h1, h2⟩
            · exact hf p hp
            · constructor
              · intro h3
                rcases Arena.anc_total h1 h3 with h4 | h4
                · rcases hax with h5 | h5
                  · exact h5 h4
                  · exact hnx (h5 ▸ .refl)
                · exact hnx h4
              · intro h3
                rcases Arena.anc_total h2 h3 with h4 | h4
                · rcases hby with h5 | h5
                  · exact h5 h4
                  · exact hny (h5 ▸ .refl)
                · exact hny h4
          · split
            · next hopq =>
              refine ⟨?_, .inr ⟨?_, hst', hxy'⟩⟩
              · split
                · exact hM.add (not_contains hin).2.1 (not_contains hin).2.2 trivial
                · exact hM
              · split
                · next hkind =>
                  have hkind : (A.data a).kind = (B.data b).kind := eq_of_beq hkind
                  have ho := h.opq a b ha hb hkind
                  have hoa : (A.data a).props.isOpaque = true := by
                    rw [Bool.or_eq_true] at hopq
                    rcases hopq with h1 | h1
                    · exact h1
                    · rw [ho]; exact h1
                  have hi := h.widgets a b ha hb hkind hoa
                  intro p hp
                  rcases List.mem_append.1 hp with hp | hp
                  · exact hf p hp
                  · rw [List.mem_singleton] at hp
                    subst hp
                    exact ⟨fun e => hnot ⟨e, hi.1 e⟩, fun e => hnot ⟨hi.2 e, e⟩⟩
                · exact hf
            · refine ⟨hM, .inr ⟨hf, fun p hp => ?_, List.mem_append_right _ hxy'⟩⟩
              rcases List.mem_append.1 hp with hp | hp
              · rw [List.mem_reverse, mem_childCandidates] at hp
                have h1 := (hA.mem_iff _ _).1 hp.1
                have h2 := (hB.mem_iff _ _).1 hp.2.1
                refine .inr ⟨.step h1 ha, .step h2 hb, ?_, ?_, ?_⟩
                · intro e; rw [e] at h1; exact not_anc_parent hA h1 ha
                · intro e; rw [e] at h2; exact not_anc_parent hB h2 hb
                · rintro ⟨h3, h4⟩
                  apply hnot
                  constructor
                  · rcases h3.cases' with e | ⟨p, hp, hxp⟩
                    · rw [← e, h.parA hA hB] at h1; cases h1; exact absurd rfl hna
                    · rw [h1] at hp; cases hp; exact hxp
                  · rcases h4.cases' with e | ⟨p, hp, hxp⟩
                    · rw [← e, h.parB hA hB] at h2; cases h2; exact absurd rfl hnb
                    · rw [h2] at hp; cases hp; exact hxp
              · exact hst' p hp

/-- The first step. -/
theorem first {d : Nat} (hd : (A.descendants ra).length ≤ d) :
    h.Hold (topDownStep (DiffTree.ofArena hashNode A ra) (DiffTree.ofArena hashNode B rb) Config.diff d
      ([(ra, rb)], Matching.empty)) := by
  have hM := Matching.Good.empty (fun _ _ => True)
  simp only [topDownStep]
  rw [if_neg (by exact Bool.false_ne_true), if_neg (show ¬ _ < Config.diff.minHeight from Nat.not_lt_zero _)]
  split
  · next heq =>
    simp only [Bool.and_eq_true, beq_iff_eq] at heq
    have e := h.hash ra rb .refl .refl heq.1
    refine ⟨(closed_true _ _).toIf.matchSubtrees d ra rb _ (hM.toIf _) trivial fun _ _ => trivial, .inl ?_⟩
    intro a b hc
    refine (matchSubtrees_alike (fun _ _ e => e) hA hB ra rb ra rb d _
      (alike_of_shape hA hB h.opq ra rb .refl .refl e) hd hM (fun p hp => by cases hp) (a, b)).2 (.inr ?_)
    exact .cons h.rootA h.kidA h.kidB hc
  · rw [if_neg]
    · refine ⟨hM, .inr ⟨nofun, fun p hp => ?_, ?_⟩⟩
      · rw [List.append_nil, List.mem_reverse, mem_childCandidates] at hp
        have h1 := (hA.mem_iff _ _).1 hp.1
        have h2 := (hB.mem_iff _ _).1 hp.2.1
        by_cases e : A.Anc x p.1 ∧ B.Anc y p.2
        · refine .inl (Prod.ext ?_ ?_)
          · exact sibling_eq hA h1 (h.parA hA hB) .refl e.1
          · exact sibling_eq hB h2 (h.parB hA hB) .refl e.2
        · refine .inr ⟨.step h1 .refl, .step h2 .refl, ?_, ?_, e⟩
          · intro e; rw [e] at h1; exact not_anc_parent hA h1 .refl
          · intro e; rw [e] at h2; exact not_anc_parent hB h2 .refl
      · rw [List.append_nil, List.mem_reverse, mem_childCandidates]
        refine ⟨List.mem_of_getElem? h.kidA, List.mem_of_getElem? h.kidB, rfl, .inl ?_⟩
        exact hash_of_shape (hashNode := hashNode) hA hB _ _ (h.shape_eq hA hB)
    · rw [Bool.or_eq_true]
      rintro (h1 | h1)
      · rw [show (DiffTree.ofArena hashNode A ra).isOpaque ra = false from h.rootA] at h1; cases h1
      · rw [show (DiffTree.ofArena hashNode B rb).isOpaque rb = false from h.rootB] at h1; cases h1

/-- The nodes of the block are matched with the nodes at the same places. -/
theorem matched {a b : Nat} (hc : Corr A B x y a b) : (a, b) ∈ (diffMatching (DiffTree.ofArena hashNode A ra)
    (DiffTree.ofArena hashNode B rb)).pairs := by
  apply diffMatching_keeps
  have h1 := C39_candidate_loop_terminates hashNode (ra := ra) (rb := rb) hA hB Config.diff Matching.empty
    (1 + (A.descendants ra).length * (B.descendants rb).length) (by omega)
  have hk : (A.descendants ra).length ≤
      matchDepth (DiffTree.ofArena hashNode A ra) (DiffTree.ofArena hashNode B rb) := by
    show _ ≤ (A.descendants ra).length + (B.descendants rb).length + 1
    omega
  have h2 : ∀ n s, h.Hold s → h.Hold (steps (topDownStep (DiffTree.ofArena hashNode A ra)
      (DiffTree.ofArena hashNode B rb) Config.diff (matchDepth (DiffTree.ofArena hashNode A ra)
        (DiffTree.ofArena hashNode B rb))) n s) := by
    intro n
    induction n with
    | zero => exact fun s hs => hs
    | succ n ih => exact fun s hs => ih _ (h.step hA hB hk s hs)
  rw [steps_add] at h1
  have h0 : h.Hold (steps (topDownStep (DiffTree.ofArena hashNode A ra) (DiffTree.ofArena hashNode B rb)
      Config.diff (matchDepth (DiffTree.ofArena hashNode A ra) (DiffTree.ofArena hashNode B rb))) 1
        ([(ra, rb)], Matching.empty)) := h.first hA hB hk
  have h3 := h2 ((A.descendants ra).length * (B.descendants rb).length) _ h0
  rw [h1] at h3
  rcases h3.2 with h4 | ⟨_, _, h4⟩
  · exact h4 a b hc
  · cases h4

end Block
end Hotmeal
