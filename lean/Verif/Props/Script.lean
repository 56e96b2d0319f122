import Verif.Props.Matching
import Verif.Lemmas.Opaque

set_option autoImplicit false
set_option linter.unusedSectionVars false

/-!
# C10 – C13, C36: the edit script

The statements are about the script generated for two arbitrary trees (well-formed arenas with any
roots) and an arbitrary matching.
-/

namespace Hotmeal

variable {H : Type} [DecidableEq H]

/-- `n` is child number `i` of its parent, or a node without parent and `i = 0`. -/
def AtIndex (A : Arena TData) (n i : Nat) : Prop :=
  match A.parent n with
  | none => i = 0
  | some p => (A.children p)[i]? = some n

variable (hashNode : HKind → Option Str → List H → H) (A B : Arena TData) (ra rb : Nat)

/-- The edit script of two trees. -/
abbrev scriptOf (M : Matching) : List EditOp :=
  generateEditScript (DiffTree.ofArena hashNode A ra) (DiffTree.ofArena hashNode B rb) M

theorem atIndex_position (hA : A.WF) (n : Nat) :
    AtIndex A n ((DiffTree.ofArena hashNode A ra).position n) := by
  unfold AtIndex
  cases hp : A.parent n with
  | none => simp [DiffTree.ofArena, hp]
  | some p =>
    simp only [DiffTree.ofArena, hp]
    exact Arena.getElem?_posIn ((hA.mem_iff _ _).2 hp)

theorem atIndex_inj (hA : A.WF) {n i j : Nat} (h1 : AtIndex A n i) (h2 : AtIndex A n j) : i = j := by
  unfold AtIndex at h1 h2
  cases hp : A.parent n with
  | none => simp only [hp] at h1 h2; omega
  | some p =>
    simp only [hp] at h1 h2
    exact List.nodup_getElem?_inj (hA.nodup p) h1 h2

theorem position_iff (hA : A.WF) {n i : Nat} :
    (DiffTree.ofArena hashNode A ra).position n = i ↔ AtIndex A n i :=
  ⟨fun e => e ▸ atIndex_position hashNode A ra hA n,
    fun h => atIndex_inj A hA (atIndex_position hashNode A ra hA n) h⟩

theorem nodup_flatMap_of_inj {α β : Type} {l : List α} {f : α → List β} (hl : l.Nodup)
    (h1 : ∀ a ∈ l, (f a).Nodup) (h2 : ∀ a ∈ l, ∀ b ∈ l, ∀ x, x ∈ f a → x ∈ f b → a = b) :
    (l.flatMap f).Nodup := by
  induction l with
  | nil => exact List.nodup_nil
  | cons a l ih =>
    rw [List.flatMap_cons, List.nodup_append]
    rw [List.nodup_cons] at hl
    refine ⟨h1 a (by simp), ih hl.2 (fun b hb => h1 b (List.mem_cons_of_mem _ hb))
      (fun b hb c hc => h2 b (List.mem_cons_of_mem _ hb) c (List.mem_cons_of_mem _ hc)), ?_⟩
    intro x hx y hy e
    subst e
    obtain ⟨b, hb, hy⟩ := List.mem_flatMap.1 hy
    have := h2 a (by simp) b (List.mem_cons_of_mem _ hb) x hx hy
    subst this
    exact hl.1 hb

/-- Which phase an operation belongs to. -/
def EditOp.phase : EditOp → Nat
  | .updateProps .. => 0
  | .setText .. => 0
  | .insert .. => 1
  | .move .. => 2
  | .delete _ => 3

section mem
variable {TA TB : DiffTree H} {M : Matching} {oA oB : List Nat} {op : EditOp}

theorem mem_updateOps : op ∈ updateOps TA TB M oA oB ↔ ∃ p ∈ M.pairs, p.1 ∉ oA ∧ p.2 ∉ oB ∧
    (op ∈ textOps TA TB p.1 p.2 ∨ op ∈ propOps TA TB p.1 p.2) := by
  unfold updateOps
  rw [List.mem_flatMap]
  refine exists_congr fun p => and_congr_right fun _ => ?_
  split
  · next h =>
    constructor
    · intro h; cases h
    · rintro ⟨h1, h2, _⟩; rcases h with h | h
      · exact absurd h h1
      · exact absurd h h2
  · next h => simp only [not_or] at h; simp [h.1, h.2]

theorem mem_insertOps : op ∈ insertOps TB M oB ↔ ∃ b pb, b ∈ TB.iter ∧ M.containsB b = false ∧
    TB.parent b = some pb ∧ b ∉ oB ∧ op = .insert b pb (TB.position b) (TB.kind b) := by
  unfold insertOps
  rw [List.mem_flatMap]
  constructor
  · rintro ⟨b, hb, h⟩
    split at h
    · cases h
    · next hc =>
      split at h
      · cases h
      · next pb hp =>
        split at h
        · cases h
        · next ho => exact ⟨b, pb, hb, by simpa using hc, hp, ho, by simpa using h⟩
  · rintro ⟨b, pb, hb, hc, hp, ho, rfl⟩
    refine ⟨b, hb, ?_⟩
    rw [hc, hp]
    simp [ho]

theorem mem_moveOps : op ∈ moveOps TA TB M oA oB ↔ ∃ a b pa pb, (a, b) ∈ M.pairs ∧ a ∉ oA ∧ b ∉ oB ∧
    TA.parent a = some pa ∧ TB.parent b = some pb ∧
    (M.getB pa ≠ some pb ∨ TA.position a ≠ TB.position b) ∧
    op = .move a b pb (TB.position b) := by
  unfold moveOps
  rw [List.mem_flatMap]
  constructor
  · rintro ⟨⟨a, b⟩, hab, h⟩
    unfold moveOp at h
    split at h
    · cases h
    · next ho =>
      simp only [not_or] at ho
      split at h
      · next pa pb hpa hpb =>
        split at h
        · next hg => exact ⟨a, b, pa, pb, hab, ho.1, ho.2, hpa, hpb, .inl hg, by simpa using h⟩
        · split at h
          · next hg => exact ⟨a, b, pa, pb, hab, ho.1, ho.2, hpa, hpb, .inr hg, by simpa using h⟩
          · cases h
      · cases h
  · rintro ⟨a, b, pa, pb, hab, ha, hb, hpa, hpb, hd, rfl⟩
    refine ⟨(a, b), hab, ?_⟩
    unfold moveOp
    rw [if_neg (by simp [ha, hb])]
    simp only [hpa, hpb]
    by_cases e : M.getB pa = some pb
    · rw [if_neg (by simp [e]), if_pos (hd.resolve_left (by simp [e]))]; simp
    · rw [if_pos e]; simp

theorem mem_deleteOps : op ∈ deleteOps TA M oA ↔ ∃ a, a ∈ TA.postOrder ∧ M.containsA a = false ∧
    a ∉ oA ∧ op = .delete a := by
  unfold deleteOps
  rw [List.mem_flatMap]
  constructor
  · rintro ⟨a, ha, h⟩
    split at h
    · cases h
    · next hc =>
      split at h
      · cases h
      · next ho => exact ⟨a, ha, by simpa using hc, ho, by simpa using h⟩
  · rintro ⟨a, ha, hc, ho, rfl⟩
    exact ⟨a, ha, by simp [hc, ho]⟩

theorem phase_update (h : op ∈ updateOps TA TB M oA oB) : op.phase = 0 := by
  obtain ⟨p, _, _, _, h | h⟩ := mem_updateOps.1 h
  · unfold textOps at h
    split at h
    · cases h
    · split at h
      · simp only [List.mem_singleton] at h; subst h; rfl
      · cases h
  · rw [Plan.propOps_eq] at h
    split at h
    · simp only [List.mem_singleton] at h; subst h; rfl
    · cases h

end mem

variable {hashNode A B ra rb}

theorem mem_scriptOf {M : Matching} {op : EditOp} : op ∈ scriptOf hashNode A B ra rb M ↔
    op ∈ updateOps (DiffTree.ofArena hashNode A ra) (DiffTree.ofArena hashNode B rb) M
      (opaqueDescendants (DiffTree.ofArena hashNode A ra))
      (opaqueDescendants (DiffTree.ofArena hashNode B rb)) ∨
    op ∈ insertOps (DiffTree.ofArena hashNode B rb) M
      (opaqueDescendants (DiffTree.ofArena hashNode B rb)) ∨
    op ∈ moveOps (DiffTree.ofArena hashNode A ra) (DiffTree.ofArena hashNode B rb) M
      (opaqueDescendants (DiffTree.ofArena hashNode A ra))
      (opaqueDescendants (DiffTree.ofArena hashNode B rb)) ∨
    op ∈ deleteOps (DiffTree.ofArena hashNode A ra) M
      (opaqueDescendants (DiffTree.ofArena hashNode A ra)) := by
  show op ∈ generateEditScript _ _ M ↔ _
  unfold generateEditScript
  simp only [List.mem_append]
  constructor
  · rintro (((h | h) | h) | h)
    · exact .inl h
    · exact .inr (.inl h)
    · exact .inr (.inr (.inl h))
    · exact .inr (.inr (.inr h))
  · rintro (h | h | h | h)
    · exact .inl (.inl (.inl h))
    · exact .inl (.inl (.inr h))
    · exact .inl (.inr h)
    · exact .inr h

theorem mem_script_phase {M : Matching} {op : EditOp} (h : op ∈ scriptOf hashNode A B ra rb M) :
    (op.phase = 1 → op ∈ insertOps (DiffTree.ofArena hashNode B rb) M
      (opaqueDescendants (DiffTree.ofArena hashNode B rb))) ∧
    (op.phase = 2 → op ∈ moveOps (DiffTree.ofArena hashNode A ra) (DiffTree.ofArena hashNode B rb) M
      (opaqueDescendants (DiffTree.ofArena hashNode A ra))
      (opaqueDescendants (DiffTree.ofArena hashNode B rb))) ∧
    (op.phase = 3 → op ∈ deleteOps (DiffTree.ofArena hashNode A ra) M
      (opaqueDescendants (DiffTree.ofArena hashNode A ra))) ∧
    (op.phase = 0 → op ∈ updateOps (DiffTree.ofArena hashNode A ra) (DiffTree.ofArena hashNode B rb) M
      (opaqueDescendants (DiffTree.ofArena hashNode A ra))
      (opaqueDescendants (DiffTree.ofArena hashNode B rb))) := by
  rcases mem_scriptOf.1 h with h | h | h | h
  · have := phase_update h
    exact ⟨by omega, by omega, by omega, fun _ => h⟩
  · obtain ⟨b, pb, _, _, _, _, rfl⟩ := mem_insertOps.1 h
    exact ⟨fun _ => h, by simp [EditOp.phase], by simp [EditOp.phase], by simp [EditOp.phase]⟩
  · obtain ⟨a, b, pa, pb, _, _, _, _, _, _, rfl⟩ := mem_moveOps.1 h
    exact ⟨by simp [EditOp.phase], fun _ => h, by simp [EditOp.phase], by simp [EditOp.phase]⟩
  · obtain ⟨a, _, _, _, rfl⟩ := mem_deleteOps.1 h
    exact ⟨by simp [EditOp.phase], by simp [EditOp.phase], fun _ => h, by simp [EditOp.phase]⟩

/-! ### C10 -/

/-- **C10.** An Insert of `b` is in the script exactly when `b` is an unmatched node of the new tree
with a parent, not strictly inside an opaque node; it names the parent, index and kind of `b`. -/
theorem C10_inserts_are_the_unmatched (hB : B.WF) (M : Matching) (b pb pos : Nat) (k : HKind) :
    .insert b pb pos k ∈ scriptOf hashNode A B ra rb M ↔
      B.Anc rb b ∧ M.getA b = none ∧ ¬ InsideOpaque B rb b ∧ B.parent b = some pb ∧
      AtIndex B b pos ∧ k = (B.data b).kind := by
  constructor
  · intro h
    obtain ⟨b', pb', h1, h2, h3, h4, e⟩ := mem_insertOps.1 ((mem_script_phase h).1 rfl)
    cases e
    refine ⟨(hB.mem_descendants _ _).1 h1, Matching.containsB_false.1 h2, ?_, h3,
      atIndex_position hashNode B rb hB b, rfl⟩
    rw [← mem_opaqueDescendants hashNode B rb hB]; exact h4
  · rintro ⟨h1, h2, h3, h4, h5, rfl⟩
    rw [mem_scriptOf]
    refine .inr (.inl (mem_insertOps.2 ⟨b, pb, (hB.mem_descendants _ _).2 h1,
      Matching.containsB_false.2 h2, h4, ?_, ?_⟩))
    · rw [mem_opaqueDescendants hashNode B rb hB]; exact h3
    · rw [(position_iff hashNode B rb hB).2 h5]; rfl

theorem insertedNodes_append (l r : List EditOp) :
    insertedNodes (l ++ r) = insertedNodes l ++ insertedNodes r := by
  simp [insertedNodes, List.filterMap_append]

theorem insertedNodes_nil {l : List EditOp} (h : ∀ op ∈ l, op.phase ≠ 1) : insertedNodes l = [] := by
  unfold insertedNodes
  rw [List.filterMap_eq_nil_iff]
  intro op hop
  cases op with
  | insert b pb pos k => exact absurd rfl (h _ hop)
  | _ => rfl

/-- The inserted nodes in order: the unmatched nodes in pre-order. -/
theorem insertedNodes_script (M : Matching) : insertedNodes (scriptOf hashNode A B ra rb M) =
    (B.descendants rb).filter fun b => M.containsB b = false && (B.parent b).isSome &&
      decide (b ∉ opaqueDescendants (DiffTree.ofArena hashNode B rb)) := by
  show insertedNodes (generateEditScript _ _ M) = _
  unfold generateEditScript
  simp only [insertedNodes_append]
  rw [insertedNodes_nil (l := updateOps _ _ _ _ _) (fun op h => by rw [phase_update h]; decide),
    insertedNodes_nil (l := moveOps _ _ _ _ _) (fun op h => by
      obtain ⟨a, b, pa, pb, _, _, _, _, _, _, rfl⟩ := mem_moveOps.1 h; simp [EditOp.phase]),
    insertedNodes_nil (l := deleteOps _ _ _) (fun op h => by
      obtain ⟨a, _, _, _, rfl⟩ := mem_deleteOps.1 h; simp [EditOp.phase])]
  rw [List.nil_append, List.append_nil, List.append_nil]
  unfold insertOps
  show insertedNodes ((B.descendants rb).flatMap _) = _
  generalize B.descendants rb = l
  induction l with
  | nil => rfl
  | cons b l ih =>
    rw [List.flatMap_cons, insertedNodes_append, ih, List.filter_cons]
    show insertedNodes (if M.containsB b = true then [] else match B.parent b with
      | none => []
      | some pb => _) ++ _ = _
    cases hc : M.containsB b with
    | true => simp [insertedNodes]
    | false =>
      cases hp : B.parent b with
      | none => simp [insertedNodes]
      | some p =>
        by_cases ho : b ∈ opaqueDescendants (DiffTree.ofArena hashNode B rb)
        · simp [ho, insertedNodes]
        · simp [ho, insertedNodes]

/-- **C10.** No node is inserted twice, and a parent's Insert comes before its children's. -/
theorem C10_inserted_once_parents_first (hB : B.WF) (M : Matching) :
    (insertedNodes (scriptOf hashNode A B ra rb M)).Nodup ∧
    ∀ l1 b l2 pb, insertedNodes (scriptOf hashNode A B ra rb M) = l1 ++ b :: l2 →
      B.parent b = some pb → pb ∈ insertedNodes (scriptOf hashNode A B ra rb M) → pb ∈ l1 := by
  rw [insertedNodes_script]
  refine ⟨(hB.descendants_nodup rb).filter _, ?_⟩
  generalize (fun b => (M.containsB b = false && (B.parent b).isSome &&
      decide (b ∉ opaqueDescendants (DiffTree.ofArena hashNode B rb)) : Bool)) = P
  intro l1 b l2 pb e hp hm
  rw [List.mem_filter] at hm
  rw [List.filter_eq_append_iff] at e
  obtain ⟨m1, m2, e1, e2, e3⟩ := e
  rw [List.filter_eq_cons_iff] at e3
  obtain ⟨r1, r2, e4, e5, e6, e7⟩ := e3
  have hne : b ≠ rb := by
    rintro rfl
    exact hB.self_parent_ne hp (hB.anc_antisymm (.step hp .refl) ((hB.mem_descendants _ _).1 hm.1))
  have := hB.descendants_parent_first rb (m1 ++ r1) b r2 pb
    (by rw [e1, e4, List.append_assoc]) hp hne
  rcases List.mem_append.1 this with h | h
  · rw [← e2, List.mem_filter]; exact ⟨h, hm.2⟩
  · exact absurd hm.2 (e5 pb h)

/-! ### C11 -/

/-- The nodes deleted by a script, in order. -/
def deletedNodes (ops : List EditOp) : List Nat :=
  ops.filterMap fun
    | .delete a => some a
    | _ => none

theorem deletedNodes_append (l r : List EditOp) :
    deletedNodes (l ++ r) = deletedNodes l ++ deletedNodes r := by
  simp [deletedNodes, List.filterMap_append]

theorem deletedNodes_nil {l : List EditOp} (h : ∀ op ∈ l, op.phase ≠ 3) : deletedNodes l = [] := by
  unfold deletedNodes
  rw [List.filterMap_eq_nil_iff]
  intro op hop
  cases op with
  | delete a => exact absurd rfl (h _ hop)
  | _ => rfl

/-- **C11.** A Delete of `a` is in the script exactly when `a` is an unmatched node of the old tree,
not strictly inside an opaque node. -/
theorem C11_deletes_are_the_unmatched (hA : A.WF) (hr : ra < A.next) (M : Matching) (a : Nat) :
    .delete a ∈ scriptOf hashNode A B ra rb M ↔
      A.Anc ra a ∧ M.getB a = none ∧ ¬ InsideOpaque A ra a := by
  have hpo : (DiffTree.ofArena hashNode A ra).postOrder = A.post ra := hA.postOrder_eq hr
  constructor
  · intro h
    obtain ⟨a', h1, h2, h3, e⟩ := mem_deleteOps.1 ((mem_script_phase h).2.2.1 rfl)
    cases e
    rw [hpo] at h1
    refine ⟨(hA.mem_post _ _).1 h1, Matching.containsA_false.1 h2, ?_⟩
    rw [← mem_opaqueDescendants hashNode A ra hA]; exact h3
  · rintro ⟨h1, h2, h3⟩
    rw [mem_scriptOf]
    refine .inr (.inr (.inr (mem_deleteOps.2 ⟨a, ?_, Matching.containsA_false.2 h2, ?_, rfl⟩)))
    · rw [hpo]; exact (hA.mem_post _ _).2 h1
    · rw [mem_opaqueDescendants hashNode A ra hA]; exact h3

theorem deletedNodes_script (hA : A.WF) (hr : ra < A.next) (M : Matching) :
    deletedNodes (scriptOf hashNode A B ra rb M) =
    (A.post ra).filter fun a => M.containsA a = false &&
      decide (a ∉ opaqueDescendants (DiffTree.ofArena hashNode A ra)) := by
  have hpo : (DiffTree.ofArena hashNode A ra).postOrder = A.post ra := hA.postOrder_eq hr
  show deletedNodes (generateEditScript _ _ M) = _
  unfold generateEditScript
  simp only [deletedNodes_append]
  rw [deletedNodes_nil (l := updateOps _ _ _ _ _) (fun op h => by rw [phase_update h]; decide),
    deletedNodes_nil (l := moveOps _ _ _ _ _) (fun op h => by
      obtain ⟨a, b, pa, pb, _, _, _, _, _, _, rfl⟩ := mem_moveOps.1 h; simp [EditOp.phase]),
    deletedNodes_nil (l := insertOps _ _ _) (fun op h => by
      obtain ⟨b, pb, _, _, _, _, rfl⟩ := mem_insertOps.1 h; simp [EditOp.phase])]
  simp only [List.nil_append]
  unfold deleteOps
  rw [hpo]
  generalize A.post ra = l
  induction l with
  | nil => rfl
  | cons a l ih =>
    rw [List.flatMap_cons, deletedNodes_append, ih, List.filter_cons]
    cases hc : M.containsA a with
    | true => simp [deletedNodes]
    | false =>
      by_cases ho : a ∈ opaqueDescendants (DiffTree.ofArena hashNode A ra)
      · simp [ho, deletedNodes]
      · simp [ho, deletedNodes]

/-- **C11.** No node is deleted twice, and a child's Delete comes before its parent's. -/
theorem C11_deleted_once_children_first (hA : A.WF) (hr : ra < A.next) (M : Matching) :
    (deletedNodes (scriptOf hashNode A B ra rb M)).Nodup ∧
    ∀ l1 a l2 c, deletedNodes (scriptOf hashNode A B ra rb M) = l1 ++ a :: l2 →
      A.parent c = some a → c ∈ deletedNodes (scriptOf hashNode A B ra rb M) → c ∈ l1 := by
  rw [deletedNodes_script hA hr]
  refine ⟨(hA.post_nodup ra).filter _, ?_⟩
  generalize (fun a => (M.containsA a = false &&
      decide (a ∉ opaqueDescendants (DiffTree.ofArena hashNode A ra)) : Bool)) = P
  intro l1 a l2 c e hp hm
  rw [List.mem_filter] at hm
  rw [List.filter_eq_append_iff] at e
  obtain ⟨m1, m2, e1, e2, e3⟩ := e
  rw [List.filter_eq_cons_iff] at e3
  obtain ⟨r1, r2, e4, e5, e6, e7⟩ := e3
  have := hA.post_children_first ra (m1 ++ r1) a r2 c (by rw [e1, e4, List.append_assoc]) hp
  rcases List.mem_append.1 this with h | h
  · rw [← e2, List.mem_filter]; exact ⟨h, hm.2⟩
  · exact absurd hm.2 (e5 c h)

/-- **C11.** The phases come in order: updates, Inserts, Moves, Deletes. In particular only Deletes
follow a Delete. -/
theorem C11_phases_in_order (M : Matching) :
    (scriptOf hashNode A B ra rb M).Pairwise fun o o' => o.phase ≤ o'.phase := by
  have hins : ∀ op ∈ insertOps (DiffTree.ofArena hashNode B rb) M
      (opaqueDescendants (DiffTree.ofArena hashNode B rb)), op.phase = 1 := by
    intro op h; obtain ⟨b, pb, _, _, _, _, rfl⟩ := mem_insertOps.1 h; rfl
  have hmov : ∀ op ∈ moveOps (DiffTree.ofArena hashNode A ra) (DiffTree.ofArena hashNode B rb) M
      (opaqueDescendants (DiffTree.ofArena hashNode A ra))
      (opaqueDescendants (DiffTree.ofArena hashNode B rb)), op.phase = 2 := by
    intro op h; obtain ⟨a, b, pa, pb, _, _, _, _, _, _, rfl⟩ := mem_moveOps.1 h; rfl
  have hdel : ∀ op ∈ deleteOps (DiffTree.ofArena hashNode A ra) M
      (opaqueDescendants (DiffTree.ofArena hashNode A ra)), op.phase = 3 := by
    intro op h; obtain ⟨a, _, _, _, rfl⟩ := mem_deleteOps.1 h; rfl
  have same : ∀ (l : List EditOp) k, (∀ op ∈ l, op.phase = k) →
      l.Pairwise fun o o' => o.phase ≤ o'.phase := by
    intro l k h
    exact List.pairwise_of_forall_mem_list fun a ha b hb => by rw [h a ha, h b hb]; exact Nat.le_refl _
  show (generateEditScript _ _ M).Pairwise _
  unfold generateEditScript
  simp only [List.pairwise_append]
  refine ⟨⟨⟨same _ 0 (fun op h => phase_update h), same _ 1 hins, ?_⟩, same _ 2 hmov, ?_⟩,
    same _ 3 hdel, ?_⟩
  · intro a ha b hb; rw [phase_update ha]; omega
  · intro a ha b hb
    rw [hmov b hb]
    rcases List.mem_append.1 ha with h | h
    · rw [phase_update h]; omega
    · rw [hins a h]; omega
  · intro a ha b hb
    rw [hdel b hb]
    rcases List.mem_append.1 ha with h | h
    · rcases List.mem_append.1 h with h | h
      · rw [phase_update h]; omega
      · rw [hins a h]; omega
    · rw [hmov a h]; omega

/-! ### C12 -/

/-- The old nodes moved by a script, in order. -/
def movedNodes (ops : List EditOp) : List Nat :=
  ops.filterMap fun
    | .move a _ _ _ => some a
    | _ => none

theorem movedNodes_append (l r : List EditOp) :
    movedNodes (l ++ r) = movedNodes l ++ movedNodes r := by
  simp [movedNodes, List.filterMap_append]

theorem movedNodes_nil {l : List EditOp} (h : ∀ op ∈ l, op.phase ≠ 2) : movedNodes l = [] := by
  unfold movedNodes
  rw [List.filterMap_eq_nil_iff]
  intro op hop
  cases op with
  | move a b pb pos => exact absurd rfl (h _ hop)
  | _ => rfl

/-- **C12.** A Move of `a`, matched to `b`, is in the script exactly when both have parents, neither
is strictly inside an opaque node, and the parents are not matched to each other or the child
indices differ. It goes to the parent and index of `b`. -/
theorem C12_moves_exactly_when_needed (hA : A.WF) (hB : B.WF) (M : Matching) (a b pb pos : Nat) :
    .move a b pb pos ∈ scriptOf hashNode A B ra rb M ↔
      (a, b) ∈ M.pairs ∧ ¬ InsideOpaque A ra a ∧ ¬ InsideOpaque B rb b ∧ B.parent b = some pb ∧
      AtIndex B b pos ∧ ∃ pa, A.parent a = some pa ∧ (M.getB pa ≠ some pb ∨ ¬ AtIndex A a pos) := by
  constructor
  · intro h
    obtain ⟨a', b', pa, pb', h1, h2, h3, h4, h5, h6, e⟩ := mem_moveOps.1 ((mem_script_phase h).2.1 rfl)
    cases e
    rw [mem_opaqueDescendants hashNode A ra hA] at h2
    rw [mem_opaqueDescendants hashNode B rb hB] at h3
    refine ⟨h1, h2, h3, h5, atIndex_position hashNode B rb hB b, pa, h4, h6.imp id ?_⟩
    intro hne hat
    exact hne ((position_iff hashNode A ra hA).2 hat)
  · rintro ⟨h1, h2, h3, h4, h5, pa, h6, h7⟩
    rw [mem_scriptOf]
    rw [← mem_opaqueDescendants hashNode A ra hA] at h2
    rw [← mem_opaqueDescendants hashNode B rb hB] at h3
    have e := (position_iff hashNode B rb hB).2 h5
    refine .inr (.inr (.inl (mem_moveOps.2 ⟨a, b, pa, pb, h1, h2, h3, h6, h4, h7.imp id ?_,
      by rw [e]⟩)))
    intro hat he
    exact hat ((position_iff hashNode A ra hA).1 (he.trans e))

/-- **C12.** No node is moved twice. -/
theorem C12_moved_once (M : Matching) (hM : (M.pairs.map Prod.fst).Nodup) :
    (movedNodes (scriptOf hashNode A B ra rb M)).Nodup := by
  show (movedNodes (generateEditScript _ _ M)).Nodup
  unfold generateEditScript
  simp only [movedNodes_append]
  rw [movedNodes_nil (l := updateOps _ _ _ _ _) (fun op h => by rw [phase_update h]; decide),
    movedNodes_nil (l := insertOps _ _ _) (fun op h => by
      obtain ⟨b, pb, _, _, _, _, rfl⟩ := mem_insertOps.1 h; simp [EditOp.phase]),
    movedNodes_nil (l := deleteOps _ _ _) (fun op h => by
      obtain ⟨a, _, _, _, rfl⟩ := mem_deleteOps.1 h; simp [EditOp.phase])]
  rw [List.nil_append, List.nil_append, List.append_nil]
  unfold moveOps
  generalize opaqueDescendants (DiffTree.ofArena hashNode A ra) = oA
  generalize opaqueDescendants (DiffTree.ofArena hashNode B rb) = oB
  have key : ∀ l : List (Nat × Nat), (l.map Prod.fst).Nodup →
      (movedNodes (l.flatMap (moveOp (DiffTree.ofArena hashNode A ra)
        (DiffTree.ofArena hashNode B rb) M oA oB))).Nodup ∧
      ∀ x ∈ movedNodes (l.flatMap (moveOp (DiffTree.ofArena hashNode A ra)
        (DiffTree.ofArena hashNode B rb) M oA oB)), x ∈ l.map Prod.fst := by
    intro l
    induction l with
    | nil => intro _; exact ⟨List.nodup_nil, fun x h => by cases h⟩
    | cons p l ih =>
      intro hl
      rw [List.map_cons, List.nodup_cons] at hl
      obtain ⟨i1, i2⟩ := ih hl.2
      have hp : movedNodes (moveOp (DiffTree.ofArena hashNode A ra) (DiffTree.ofArena hashNode B rb) M
          oA oB p) = [] ∨ movedNodes (moveOp (DiffTree.ofArena hashNode A ra)
          (DiffTree.ofArena hashNode B rb) M oA oB p) = [p.1] := by
        unfold moveOp
        split
        · exact .inl rfl
        · split
          · split
            · exact .inr rfl
            · split
              · exact .inr rfl
              · exact .inl rfl
          · exact .inl rfl
      rw [List.flatMap_cons, movedNodes_append]
      rcases hp with e | e
      · rw [e, List.nil_append]
        exact ⟨i1, fun x hx => List.mem_cons_of_mem _ (i2 x hx)⟩
      · rw [e, List.singleton_append, List.nodup_cons]
        refine ⟨⟨fun hx => hl.1 (i2 _ hx), i1⟩, ?_⟩
        intro x hx
        rcases List.mem_cons.1 hx with rfl | hx
        · exact List.mem_cons_self
        · exact List.mem_cons_of_mem _ (i2 x hx)
  exact (key _ hM).1

/-! ### C13 -/

/-- **C13.** A SetText is in the script exactly for the matched pairs outside opaque content whose
new text exists and differs from the old one; it carries the new text. -/
theorem C13_text_updates_exactly_when_needed (hA : A.WF) (hB : B.WF) (M : Matching) (a b : Nat)
    (t : Str) :
    .setText a b t ∈ scriptOf hashNode A B ra rb M ↔
      (a, b) ∈ M.pairs ∧ ¬ InsideOpaque A ra a ∧ ¬ InsideOpaque B rb b ∧
      (B.data b).text = some t ∧ (A.data a).text ≠ some t := by
  constructor
  · intro h
    obtain ⟨p, h1, h2, h3, h | h⟩ := mem_updateOps.1 ((mem_script_phase h).2.2.2 rfl)
    · unfold textOps at h
      split at h
      · cases h
      · next hne =>
        split at h
        · next t' ht =>
          simp only [List.mem_singleton] at h
          cases h
          rw [mem_opaqueDescendants hashNode A ra hA] at h2
          rw [mem_opaqueDescendants hashNode B rb hB] at h3
          refine ⟨h1, h2, h3, ht, fun e => hne ?_⟩
          rw [ht]; exact e
        · cases h
    · rw [Plan.propOps_eq] at h
      split at h
      · simp at h
      · cases h
  · rintro ⟨h1, h2, h3, h4, h5⟩
    rw [← mem_opaqueDescendants hashNode A ra hA] at h2
    rw [← mem_opaqueDescendants hashNode B rb hB] at h3
    rw [mem_scriptOf]
    refine .inl (mem_updateOps.2 ⟨(a, b), h1, h2, h3, .inl ?_⟩)
    have hb : (DiffTree.ofArena hashNode B rb).text b = some t := h4
    unfold textOps
    rw [hb, if_neg (show ¬ (DiffTree.ofArena hashNode A ra).text a = some t from h5)]
    simp

/-- **C13.** For duplicate-free attribute lists, an UpdateProps is in the script exactly for the
matched pairs outside opaque content whose attribute lists differ in names, values or order. Its
changes turn the old list into the new one (`C14`). -/
theorem C13_prop_updates_exactly_when_needed (hA : A.WF) (hB : B.WF) (M : Matching) (a b : Nat)
    (ha : (A.data a).props.Unique) (hb : (B.data b).props.Unique) (ch : List PropFinal) :
    .updateProps a b ch ∈ scriptOf hashNode A B ra rb M ↔
      (a, b) ∈ M.pairs ∧ ¬ InsideOpaque A ra a ∧ ¬ InsideOpaque B rb b ∧
      (A.data a).props ≠ (B.data b).props ∧ ch = (A.data a).props.diff (B.data b).props := by
  constructor
  · intro h
    obtain ⟨p, h1, h2, h3, h | h⟩ := mem_updateOps.1 ((mem_script_phase h).2.2.2 rfl)
    · unfold textOps at h
      split at h
      · cases h
      · split at h
        · simp at h
        · cases h
    · rw [Plan.propOps_eq] at h
      split at h
      · next he =>
        simp only [List.mem_singleton] at h
        cases h
        rw [mem_opaqueDescendants hashNode A ra hA] at h2
        rw [mem_opaqueDescendants hashNode B rb hB] at h3
        exact ⟨h1, h2, h3, (C13_attr_update_iff_differ _ _ ha hb).1 he, rfl⟩
      · cases h
  · rintro ⟨h1, h2, h3, h4, rfl⟩
    rw [← mem_opaqueDescendants hashNode A ra hA] at h2
    rw [← mem_opaqueDescendants hashNode B rb hB] at h3
    rw [mem_scriptOf]
    refine .inl (mem_updateOps.2 ⟨(a, b), h1, h2, h3, .inr ?_⟩)
    rw [Plan.propOps_eq]
    have := (C13_attr_update_iff_differ _ _ ha hb).2 h4
    show _ ∈ (if attrUpdateEmitted (A.data a).props (B.data b).props = true then _ else _)
    rw [if_pos this]
    exact List.mem_singleton.2 rfl

/-! ### C36 -/

/-- The node of the old tree an operation is about. -/
def EditOp.oldNode : EditOp → Option Nat
  | .updateProps a _ _ => some a
  | .setText a _ _ => some a
  | .insert _ _ _ _ => none
  | .move a _ _ _ => some a
  | .delete a => some a

/-- The node of the new tree an operation is about. -/
def EditOp.newNode : EditOp → Option Nat
  | .updateProps _ b _ => some b
  | .setText _ b _ => some b
  | .insert b _ _ _ => some b
  | .move _ b _ _ => some b
  | .delete _ => none

/-- **C36.** No operation is about a node strictly inside an opaque node of the old or the new
tree. -/
theorem C36_script_avoids_opaque_content (hA : A.WF) (hB : B.WF) (M : Matching) (op : EditOp)
    (h : op ∈ scriptOf hashNode A B ra rb M) :
    (∀ a, op.oldNode = some a → ¬ InsideOpaque A ra a) ∧
    (∀ b, op.newNode = some b → ¬ InsideOpaque B rb b) := by
  have hoA := mem_opaqueDescendants hashNode A ra hA
  have hoB := mem_opaqueDescendants hashNode B rb hB
  rcases mem_scriptOf.1 h with h | h | h | h
  · obtain ⟨p, h1, h2, h3, h | h⟩ := mem_updateOps.1 h
    · unfold textOps at h
      split at h
      · cases h
      · split at h
        · simp only [List.mem_singleton] at h
          subst h
          refine ⟨?_, ?_⟩
          · rintro a ha; cases ha; rw [← hoA]; exact h2
          · rintro a ha; cases ha; rw [← hoB]; exact h3
        · cases h
    · rw [Plan.propOps_eq] at h
      split at h
      · simp only [List.mem_singleton] at h
        subst h
        refine ⟨?_, ?_⟩
        · rintro a ha; cases ha; rw [← hoA]; exact h2
        · rintro a ha; cases ha; rw [← hoB]; exact h3
      · cases h
  · obtain ⟨b, pb, _, _, _, h4, rfl⟩ := mem_insertOps.1 h
    refine ⟨fun a ha => (by cases ha), ?_⟩
    rintro a ha; cases ha; rw [← hoB]; exact h4
  · obtain ⟨a, b, pa, pb, _, h2, h3, _, _, _, rfl⟩ := mem_moveOps.1 h
    refine ⟨?_, ?_⟩
    · rintro a ha; cases ha; rw [← hoA]; exact h2
    · rintro a ha; cases ha; rw [← hoB]; exact h3
  · obtain ⟨a, _, _, h2, rfl⟩ := mem_deleteOps.1 h
    refine ⟨?_, fun a ha => (by cases ha)⟩
    rintro a ha; cases ha; rw [← hoA]; exact h2

/-! ### A concrete case -/

/-- Old content with an opaque element. -/
def opq1 : List Html :=
  [ex "ul" [("class", "a")] [ex "li" [] [.text "one".toList], ex "li" [("id", "x")] [.text "two".toList]],
    ex "div" [("data-hotmeal-opaque", "")] [ex "i" [] [.text "in".toList], .text "side".toList],
    ex "hr" [] []]
/-- New content: updates, an insertion, a move, a deletion, and a change of the opaque content. -/
def opq2 : List Html :=
  [ex "ul" [("class", "b")] [ex "li" [("id", "x")] [.text "two".toList], ex "li" [] [.text "1".toList]],
    ex "p" [] [.text "new".toList],
    ex "div" [("data-hotmeal-opaque", "")] [.text "other".toList]]

/-- How many operations of each phase a script has. -/
def phaseCounts (ops : List EditOp) : List Nat :=
  [0, 1, 2, 3].map fun k => (ops.filter fun o => o.phase = k).length

/-- The two trees meet the hypotheses of the theorems above; the script has operations of every
phase and there is opaque content on both sides. -/
example : (buildTree (.ofForest opq1) 2).WF ∧ (diffable (.ofForest opq2)).WF ∧
    0 < (buildTree (.ofForest opq1) 2).next ∧
    phaseCounts (scriptOf Shape.node (buildTree (.ofForest opq1) 2) (diffable (.ofForest opq2)) 0 2
      (diffMatching (oldTree Shape.node (.ofForest opq1) 2) (newTree Shape.node (.ofForest opq2) 2)))
      = [1, 4, 3, 3] ∧
    opaqueDescendants (oldTree Shape.node (.ofForest opq1) 2) ≠ [] ∧
    opaqueDescendants (newTree Shape.node (.ofForest opq2) 2) ≠ [] := by
  obtain ⟨g, hg⟩ := buildTree_spec (.ofForest opq1)
    (ofForest_valid opq1 (by decide +kernel)).leafy 2
  have hw := (ofForest_valid opq2 (by decide +kernel)).wf
  exact ⟨hg.wf, ⟨hw.lt_of_parent, hw.mem_iff, hw.nodup, hw.acyclic⟩, hg.pos, by decide +kernel,
    by decide +kernel, by decide +kernel⟩

end Hotmeal
