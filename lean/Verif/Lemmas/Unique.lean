import Verif.Lemmas.StayUp

set_option autoImplicit false
set_option linter.unusedSectionVars false

/-!
# A subtree that occurs once in each tree is matched with its copy
-/

namespace Hotmeal

variable {H : Type} [DecidableEq H] {hashNode : HKind → Option Str → List H → H} {A B : Arena TData}
  {ra rb : Nat}

/-- Nodes on the same level whose ancestors have pairwise the same kind. -/
inductive Trail (A B : Arena TData) (ra rb : Nat) : Nat → Nat → Prop
  | root : Trail A B ra rb ra rb
  | child {p q a b : Nat} (h : Trail A B ra rb p q) (ha : A.parent a = some p)
      (hb : B.parent b = some q) (hk : (A.data a).kind = (B.data b).kind) : Trail A B ra rb a b

theorem Trail.ancA {a b : Nat} (h : Trail A B ra rb a b) : A.Anc ra a := by
  induction h with
  | root => exact .refl
  | child _ ha _ _ ih => exact .step ha ih

theorem Trail.ancB {a b : Nat} (h : Trail A B ra rb a b) : B.Anc rb b := by
  induction h with
  | root => exact .refl
  | child _ _ hb _ ih => exact .step hb ih

theorem Trail.trans {p q a b : Nat} (h : Trail A B ra rb p q) (h' : Trail A B p q a b) :
    Trail A B ra rb a b := by
  induction h' with
  | root => exact h
  | child _ ha hb hk ih => exact .child ih ha hb hk

theorem Trail.first {a b : Nat} (h : Trail A B ra rb a b) :
    (a = ra ∧ b = rb) ∨ ∃ c d, A.parent c = some ra ∧ B.parent d = some rb ∧
      (A.data c).kind = (B.data d).kind ∧ Trail A B c d a b := by
  induction h with
  | root => exact .inl ⟨rfl, rfl⟩
  | @child p q a b _ ha hb hk ih =>
    rcases ih with ⟨rfl, rfl⟩ | ⟨c, d, h1, h2, h3, h4⟩
    · exact .inr ⟨a, b, ha, hb, hk, .root⟩
    · exact .inr ⟨c, d, h1, h2, h3, .child h4 ha hb hk⟩

/-- Equal shapes contain the same subtrees. -/
theorem shape_below (hA : A.WF) (hB : B.WF) {a x : Nat} (h : A.Anc a x) :
    ∀ b, A.shape a = B.shape b → ∃ y, B.Anc b y ∧ A.shape x = B.shape y := by
  induction h with
  | refl => exact fun b e => ⟨b, .refl, e⟩
  | @step x p hp _ ih =>
    intro b e
    obtain ⟨q, hq, e⟩ := ih b e
    rw [hA.shape_eq, hB.shape_eq] at e
    injection e with _ _ e
    have hm : A.shape x ∈ (A.children p).map A.shape := List.mem_map_of_mem ((hA.mem_iff _ _).2 hp)
    rw [e, List.mem_map] at hm
    obtain ⟨y, hy, e⟩ := hm
    exact ⟨y, .step ((hB.mem_iff _ _).1 hy) hq, e.symm⟩

theorem hash_of_shape (hA : A.WF) (hB : B.WF) (a : Nat) : ∀ b, A.shape a = B.shape b →
    (DiffTree.ofArena hashNode A ra).hash a = (DiffTree.ofArena hashNode B rb).hash b := by
  induction a using hA.induct_down with
  | step a ih =>
    intro b e
    show A.fold _ a = B.fold _ b
    rw [hA.fold_eq, hB.fold_eq]
    rw [hA.shape_eq, hB.shape_eq] at e
    injection e with e1 e2 e3
    rw [e1, e2]
    congr 1
    have hl : (A.children a).length = (B.children b).length := by
      have := congrArg List.length e3
      simpa using this
    apply List.ext_getElem?
    intro i
    rw [List.getElem?_map, List.getElem?_map]
    have e4 : ((A.children a).map A.shape)[i]? = ((B.children b).map B.shape)[i]? := by rw [e3]
    rw [List.getElem?_map, List.getElem?_map] at e4
    cases h1 : (A.children a)[i]? with
    | none =>
      have : (B.children b)[i]? = none := by rw [List.getElem?_eq_none_iff] at h1 ⊢; omega
      rw [this]; rfl
    | some c =>
      cases h2 : (B.children b)[i]? with
      | none =>
        rw [List.getElem?_eq_none_iff] at h2
        have := (List.getElem?_eq_some_iff.1 h1).1
        omega
      | some d =>
        rw [h1, h2] at e4
        exact congrArg some (ih c (List.mem_of_getElem? h1) d (Option.some.inj e4))

/-! ### Pairs are only added -/

section
variable {TA TB : DiffTree H} {cfg : Config}

theorem matchSubtrees_keeps (k : Nat) : ∀ (a b : Nat) (M : Matching),
    ∀ p ∈ M.pairs, p ∈ (matchSubtrees TA TB k a b M).pairs := by
  induction k with
  | zero => exact fun _ _ _ _ h => h
  | succ k ih =>
    intro a b M p hp
    unfold matchSubtrees
    split
    · exact hp
    · have h1 := M.pairs_add_sub a b p hp
      simp only
      split
      · exact h1
      · exact foldl_inv (P := fun M : Matching => p ∈ M.pairs) _ _ h1 fun M hM (q : Nat × Nat) _ => ih q.1 q.2 M p hM

theorem pass1Step_keeps (opq : List Nat) (f : HKind → List Nat) (M : Matching) (a : Nat) :
    ∀ p ∈ M.pairs, p ∈ (pass1Step TA TB cfg opq f M a).pairs := by
  intro p hp
  have h1 : ∀ x y, p ∈ (M.add x y).pairs := fun x y => M.pairs_add_sub x y p hp
  unfold pass1Step pass1Dice
  repeat' split
  all_goals first | exact hp | exact h1 _ _

theorem pass2Step_keeps (opq : List Nat) (f : HKind → List Nat) (M : Matching) (a : Nat) :
    ∀ p ∈ M.pairs, p ∈ (pass2Step TA TB cfg opq f M a).pairs := by
  intro p hp
  have h1 : ∀ x y, p ∈ (M.add x y).pairs := fun x y => M.pairs_add_sub x y p hp
  unfold pass2Step
  split
  · exact hp
  split
  · exact hp
  · split
    · exact h1 _ _
    · exact hp

theorem diffMatching_keeps : ∀ p ∈ (topDown TA TB Config.diff Matching.empty).pairs,
    p ∈ (diffMatching TA TB).pairs := by
  intro p hp
  have h2 : p ∈ (computeMatching TA TB Config.diff).pairs := by
    unfold computeMatching bottomUp
    simp only
    refine foldl_inv (P := fun M : Matching => p ∈ M.pairs) _ _ (foldl_inv (P := fun M : Matching => p ∈ M.pairs) _ _ hp ?_) ?_
    · exact fun M hM a _ => pass1Step_keeps _ _ M a p hM
    · exact fun M hM a _ => pass2Step_keeps _ _ M a p hM
  unfold diffMatching forceRoots
  split
  · exact Matching.pairs_add_sub _ _ _ p h2
  · exact h2

end

/-! ### Subtrees that occur once -/

theorem sibling_eq {α : Type} {A : Arena α} (hA : A.WF) {p c d x : Nat} (hc : A.parent c = some p)
    (hd : A.parent d = some p) (hx : A.Anc c x) (hy : A.Anc d x) : c = d := by
  rcases Arena.anc_total hx hy with h | h
  · rcases h.cases' with h | ⟨q, h1, h2⟩
    · exact h
    · rw [hd] at h1; cases h1; exact absurd h2 (not_anc_parent hA hc)
  · rcases h.cases' with h | ⟨q, h1, h2⟩
    · exact h.symm
    · rw [hc] at h1; cases h1; exact absurd h2 (not_anc_parent hA hd)

variable (hashNode A B ra rb) in
/-- `x` and `y` are the only candidates for each other: they have the same shape or are opaque elements of the
same kind, subtrees of equal shape contain both or none of them, no element above them is opaque, and opaque
and ordinary elements are of different kinds. -/
structure Sole (x y : Nat) : Prop where
  hash : NoCollisionFrom hashNode A ra B rb
  above : ∀ a b, A.Anc ra a → B.Anc rb b → A.shape a = B.shape b → (A.Anc a x ↔ B.Anc b y)
  atopB : ∀ b, B.Anc rb b → A.shape x = B.shape b → b = y
  atopA : ∀ a, A.Anc ra a → A.shape a = B.shape y → a = x
  pathA : ∀ a, A.Anc ra a → A.Anc a x → a ≠ x → (A.data a).props.isOpaque = false
  pathB : ∀ b, B.Anc rb b → B.Anc b y → b ≠ y → (B.data b).props.isOpaque = false
  apart : ∀ a b, A.Anc ra a → B.Anc rb b → (A.data a).kind = (B.data b).kind →
    (A.data a).props.isOpaque = (B.data b).props.isOpaque
  onlyB : (A.data x).props.isOpaque = true → ∀ b, B.Anc rb b → (A.data x).kind = (B.data b).kind → b = y
  onlyA : (B.data y).props.isOpaque = true → ∀ a, A.Anc ra a → (A.data a).kind = (B.data y).kind → a = x
  hit : A.shape x = B.shape y ∨ ((A.data x).kind = (B.data y).kind ∧ (A.data x).props.isOpaque = true)
  trail : Trail A B ra rb x y

variable (hashNode A B ra rb) in
/-- `x` and `y` have the same shape and no other node of their tree has it, neither tree has opaque
elements, and `x` and `y` have ancestors of pairwise the same kind. -/
structure Lone (x y : Nat) : Prop where
  clearA : ∀ n, A.Anc ra n → (A.data n).props.isOpaque = false
  clearB : ∀ n, B.Anc rb n → (B.data n).props.isOpaque = false
  hash : NoCollisionFrom hashNode A ra B rb
  same : A.shape x = B.shape y
  loneA : ∀ n, A.Anc ra n → A.shape n = A.shape x → n = x
  loneB : ∀ n, B.Anc rb n → B.shape n = B.shape y → n = y
  trail : Trail A B ra rb x y

theorem Lone.sole {x y : Nat} (hA : A.WF) (hB : B.WF) (h : Lone hashNode A B ra rb x y) :
    Sole hashNode A B ra rb x y where
  hash := h.hash
  above := by
    intro a b ha hb e
    constructor
    · intro hx
      obtain ⟨y', h1, h2⟩ := shape_below hA hB hx b e
      rw [h.same] at h2
      rw [← h.loneB y' (hb.trans h1) h2.symm]; exact h1
    · intro hy
      obtain ⟨x', h1, h2⟩ := shape_below hB hA hy a e.symm
      rw [← h.same] at h2
      rw [← h.loneA x' (ha.trans h1) h2.symm]; exact h1
  atopB := fun b hb e => h.loneB b hb (by rw [← e, h.same])
  atopA := fun a ha e => h.loneA a ha (by rw [e, h.same])
  pathA := fun a ha _ _ => h.clearA a ha
  pathB := fun b hb _ _ => h.clearB b hb
  apart := fun a b ha hb _ => by rw [h.clearA a ha, h.clearB b hb]
  onlyB := fun e => by rw [h.clearA _ h.trail.ancA] at e; cases e
  onlyA := fun e => by rw [h.clearB _ h.trail.ancB] at e; cases e
  hit := .inl h.same
  trail := h.trail

namespace Sole

variable {x y : Nat} (hA : A.WF) (hB : B.WF) (h : Sole hashNode A B ra rb x y)
include hA hB h

omit hA hB h in
/-- No node between `a` and `x` or between `b` and `y` is matched. -/
def Free (A B : Arena TData) (x y a b : Nat) (M : Matching) : Prop :=
  ∀ p ∈ M.pairs, ¬ (A.Anc a p.1 ∧ A.Anc p.1 x) ∧ ¬ (B.Anc b p.2 ∧ B.Anc p.2 y)

/-- Matching two equal subtrees. -/
theorem subtrees (k : Nat) : ∀ (a b : Nat) (M : Matching), M.Good (fun _ _ => True) → A.Anc ra a → B.Anc rb b →
    A.shape a = B.shape b → (A.descendants a).length ≤ k →
    (∀ p ∈ (matchSubtrees (DiffTree.ofArena hashNode A ra) (DiffTree.ofArena hashNode B rb) k a b M).pairs,
      p ∈ M.pairs ∨ (A.Anc a p.1 ∧ B.Anc b p.2)) ∧
    (A.Anc a x → ((x, y) ∈ M.pairs ∨ Free A B x y a b M) →
      (x, y) ∈ (matchSubtrees (DiffTree.ofArena hashNode A ra) (DiffTree.ofArena hashNode B rb) k a b M).pairs) := by
  induction k with
  | zero =>
    intro a b M _ _ _ _ hk
    have := size_eq hA a
    omega
  | succ k ih =>
    intro a b M hM ha hb e hk
    have e' := e
    rw [hA.shape_eq, hB.shape_eq] at e'
    injection e' with ek _ ec
    have hlen : (A.children a).length = (B.children b).length := by
      have := congrArg List.length ec
      simpa using this
    have hkid : ∀ c, A.parent c = some a → (A.descendants c).length ≤ k := by
      intro c hc
      have h1 := size_eq hA a
      have h2 := le_sum (List.mem_map_of_mem (f := fun c => (A.descendants c).length)
        ((hA.mem_iff _ _).2 hc))
      omega
    by_cases hin : (M.containsA a || M.containsB b) = true
    · have e1 : matchSubtrees (DiffTree.ofArena hashNode A ra) (DiffTree.ofArena hashNode B rb) (k + 1) a b M
          = M := by
        unfold matchSubtrees; rw [if_pos hin]
      rw [e1]
      refine ⟨fun p hp => .inl hp, fun hx hf => ?_⟩
      rcases hf with hf | hf
      · exact hf
      · exfalso
        rw [Bool.or_eq_true] at hin
        rcases hin with hin | hin
        · cases e2 : M.getB a with
          | none => rw [Matching.containsA_false.2 e2] at hin; cases hin
          | some z => exact (hf (a, z) ((hM.getB _ _).1 e2)).1 ⟨.refl, hx⟩
        · cases e2 : M.getA b with
          | none => rw [Matching.containsB_false.2 e2] at hin; cases hin
          | some z => exact (hf (z, b) ((hM.getA _ _).1 e2)).2 ⟨.refl, (h.above _ _ ha hb e).1 hx⟩
    · obtain ⟨hin, hin1, hin2⟩ := not_contains hin
      by_cases hopq : ((DiffTree.ofArena hashNode A ra).isOpaque a || (DiffTree.ofArena hashNode B rb).isOpaque b)
          = true
      · have e1 : matchSubtrees (DiffTree.ofArena hashNode A ra) (DiffTree.ofArena hashNode B rb) (k + 1) a b M
            = M.add a b := by
          conv => lhs; unfold matchSubtrees
          rw [if_neg (by rw [hin]; exact Bool.false_ne_true)]
          simp only
          rw [if_pos hopq]
        rw [e1]
        constructor
        · intro p hp
          rcases List.mem_append.1 hp with hp | hp
          · exact .inl hp
          · rw [List.mem_singleton] at hp; subst hp; exact .inr ⟨.refl, .refl⟩
        · intro hx _
          have hy := (h.above a b ha hb e).1 hx
          have hxy : a = x ∧ b = y := by
            rw [Bool.or_eq_true] at hopq
            by_cases h1 : a = x
            · subst h1; exact ⟨rfl, h.atopB b hb e⟩
            by_cases h2 : b = y
            · subst h2; exact ⟨h.atopA a ha e, rfl⟩
            exfalso
            rcases hopq with h3 | h3
            · rw [show (DiffTree.ofArena hashNode A ra).isOpaque a = false from h.pathA a ha hx h1] at h3; cases h3
            · rw [show (DiffTree.ofArena hashNode B rb).isOpaque b = false from h.pathB b hb hy h2] at h3; cases h3
          rw [← hxy.1, ← hxy.2]
          exact List.mem_append.2 (.inr (List.mem_singleton.2 rfl))
      have e1 : matchSubtrees (DiffTree.ofArena hashNode A ra) (DiffTree.ofArena hashNode B rb) (k + 1) a b M
          = ((A.children a).zip (B.children b)).foldl
            (fun M p => matchSubtrees (DiffTree.ofArena hashNode A ra) (DiffTree.ofArena hashNode B rb) k
              p.1 p.2 M) (M.add a b) := by
        conv => lhs; unfold matchSubtrees
        rw [if_neg (by rw [hin]; exact Bool.false_ne_true)]
        simp only
        rw [if_neg hopq]
        rfl
      rw [e1]
      -- the children
      have hz : ∀ p ∈ (A.children a).zip (B.children b), A.parent p.1 = some a ∧ B.parent p.2 = some b ∧
          A.shape p.1 = B.shape p.2 := by
        intro p hp
        have := List.of_mem_zip (a := p.1) (b := p.2) hp
        exact ⟨(hA.mem_iff _ _).1 this.1, (hB.mem_iff _ _).1 this.2, zip_map_eq ec p hp⟩
      have hM1 : (M.add a b).Good (fun _ _ => True) := hM.add hin1 hin2 trivial
      constructor
      · refine (foldl_inv (P := fun M' : Matching => M'.Good (fun _ _ => True) ∧ ∀ p ∈ M'.pairs,
          p ∈ M.pairs ∨ (A.Anc a p.1 ∧ B.Anc b p.2)) _ _ ⟨hM1, ?_⟩ ?_).2
        · intro p hp
          rcases List.mem_append.1 hp with hp | hp
          · exact .inl hp
          · rw [List.mem_singleton] at hp; subst hp; exact .inr ⟨.refl, .refl⟩
        · intro M' hM' q hq
          obtain ⟨q1, q2, q3⟩ := hz q hq
          refine ⟨(closed_true _ _).toIf.matchSubtrees k q.1 q.2 M' (hM'.1.toIf _) trivial fun _ _ => trivial, ?_⟩
          intro p hp
          rcases (ih q.1 q.2 M' hM'.1 (.step q1 ha) (.step q2 hb) q3 (hkid _ q1)).1 p hp with hp | hp
          · exact hM'.2 p hp
          · exact .inr ⟨(Arena.Anc.step q1 .refl).trans hp.1, (Arena.Anc.step q2 .refl).trans hp.2⟩
      · intro hx hf
        have hkeep : ∀ (l : List (Nat × Nat)) (M' : Matching), (x, y) ∈ M'.pairs → (x, y) ∈ (l.foldl
            (fun M p => matchSubtrees (DiffTree.ofArena hashNode A ra) (DiffTree.ofArena hashNode B rb) k
              p.1 p.2 M) M').pairs := by
          intro l M' hm
          exact foldl_inv (P := fun M : Matching => (x, y) ∈ M.pairs) _ _ hm fun M hM (q : Nat × Nat) _ =>
            matchSubtrees_keeps k q.1 q.2 M _ hM
        rcases hf with hf | hf
        · exact hkeep _ _ (Matching.pairs_add_sub _ _ _ _ hf)
        rcases hx.first with rfl | ⟨c, hc, hcx⟩
        · have : b = y := h.atopB b hb e
          subst this
          exact hkeep _ _ (List.mem_append.2 (.inr (List.mem_singleton.2 rfl)))
        · obtain ⟨i, hi⟩ := List.mem_iff_getElem?.1 ((hA.mem_iff _ _).2 hc)
          obtain ⟨d, hd⟩ : ∃ d, (B.children b)[i]? = some d :=
            ⟨_, List.getElem?_eq_getElem (by have := (List.getElem?_eq_some_iff.1 hi).1; omega)⟩
          have hcd : (c, d) ∈ (A.children a).zip (B.children b) := by
            refine List.mem_iff_getElem?.2 ⟨i, ?_⟩
            rw [List.getElem?_zip_eq_some]; exact ⟨hi, hd⟩
          obtain ⟨_, hdb, hcd'⟩ := hz _ hcd
          have hdy := (h.above _ _ (.step hc ha) (.step hdb hb) hcd').1 hcx
          -- siblings are not above `x` or `y`
          have key : ∀ (l : List (Nat × Nat)) (M' : Matching), (∀ q ∈ l, q ∈ (A.children a).zip (B.children b)) →
              M'.Good (fun _ _ => True) → ((x, y) ∈ M'.pairs ∨ Free A B x y c d M') → (c, d) ∈ l →
              (x, y) ∈ (l.foldl (fun M p => matchSubtrees (DiffTree.ofArena hashNode A ra)
                (DiffTree.ofArena hashNode B rb) k p.1 p.2 M) M').pairs := by
            intro l
            induction l with
            | nil => intro _ _ _ _ hm; cases hm
            | cons q l ihl =>
              intro M' hl hM' hf' hm
              obtain ⟨q1, q2, q3⟩ := hz q (hl q (by simp))
              have hr := ih q.1 q.2 M' hM' (.step q1 ha) (.step q2 hb) q3 (hkid _ q1)
              rw [List.foldl_cons]
              by_cases hqx : A.Anc q.1 x
              · have e2 : q.1 = c := sibling_eq hA q1 hc hqx hcx
                have e3 : q.2 = d := sibling_eq hB q2 hdb
                  ((h.above _ _ (.step q1 ha) (.step q2 hb) q3).1 hqx) hdy
                apply hkeep
                refine hr.2 hqx ?_
                rw [e2, e3]; exact hf'
              · have hqy : ¬ B.Anc q.2 y := fun hh => hqx ((h.above _ _ (.step q1 ha) (.step q2 hb) q3).2 hh)
                rcases List.mem_cons.1 hm with rfl | hm
                · exact absurd hcx hqx
                refine ihl _ (fun q hq => hl q (List.mem_cons_of_mem _ hq)) ?_ ?_ hm
                · exact (closed_true _ _).toIf.matchSubtrees k q.1 q.2 M' (hM'.toIf _) trivial fun _ _ => trivial
                · rcases hf' with hf' | hf'
                  · exact .inl (matchSubtrees_keeps k q.1 q.2 M' _ hf')
                  · refine .inr fun p hp => ?_
                    rcases hr.1 p hp with hp | hp
                    · exact hf' p hp
                    · exact ⟨fun hh => hqx (hp.1.trans hh.2), fun hh => hqy (hp.2.trans hh.2)⟩
          refine key _ _ (fun _ hq => hq) hM1 (.inr fun p hp => ?_) hcd
          rcases List.mem_append.1 hp with hp | hp
          · have := hf p hp
            exact ⟨fun hh => this.1 ⟨(Arena.Anc.step hc .refl).trans hh.1, hh.2⟩,
              fun hh => this.2 ⟨(Arena.Anc.step hdb .refl).trans hh.1, hh.2⟩⟩
          · rw [List.mem_singleton] at hp; subst hp
            exact ⟨fun hh => not_anc_parent hA hc hh.1, fun hh => not_anc_parent hB hdb hh.1⟩

/-- What holds of the stack and the matching until the two nodes are matched. -/
def Pending (A B : Arena TData) (ra rb x y : Nat) (s : List (Nat × Nat) × Matching) : Prop :=
  s.2.Good (fun _ _ => True) ∧ (∀ p ∈ s.1, A.Anc ra p.1 ∧ B.Anc rb p.2) ∧
  ((x, y) ∈ s.2.pairs ∨ ((∀ p ∈ s.2.pairs, ¬ A.Anc p.1 x ∧ ¬ B.Anc p.2 y) ∧
    ∃ p ∈ s.1, Trail A B p.1 p.2 x y))

theorem step {k : Nat} (hk : (A.descendants ra).length ≤ k) (s : List (Nat × Nat) × Matching)
    (hs : Pending A B ra rb x y s) :
    Pending A B ra rb x y (topDownStep (DiffTree.ofArena hashNode A ra) (DiffTree.ofArena hashNode B rb)
      Config.diff k s) := by
  obtain ⟨st, M⟩ := s
  obtain ⟨hM, hst, hp⟩ := hs
  cases st with
  | nil => exact ⟨hM, hst, hp⟩
  | cons q st =>
    obtain ⟨a, b⟩ := q
    obtain ⟨ha, hb⟩ := hst (a, b) (by simp)
    have hst' : ∀ p ∈ st, A.Anc ra p.1 ∧ B.Anc rb p.2 := fun p hp => hst p (List.mem_cons_of_mem _ hp)
    simp only [topDownStep]
    split
    · next hin =>
      refine ⟨hM, hst', ?_⟩
      rcases hp with hp | ⟨hf, p, hp, ht⟩
      · exact .inl hp
      · refine .inr ⟨hf, p, ?_, ht⟩
        rcases List.mem_cons.1 hp with rfl | hp
        · exfalso
          rw [Bool.or_eq_true] at hin
          rcases hin with hin | hin
          · cases e2 : M.getB a with
            | none => rw [Matching.containsA_false.2 e2] at hin; cases hin
            | some z => exact (hf (a, z) ((hM.getB _ _).1 e2)).1 ht.ancA
          · cases e2 : M.getA b with
            | none => rw [Matching.containsB_false.2 e2] at hin; cases hin
            | some z => exact (hf (z, b) ((hM.getA _ _).1 e2)).2 ht.ancB
        · exact hp
    · next hin =>
      rw [if_neg (show ¬ _ < Config.diff.minHeight from Nat.not_lt_zero _)]
      split
      · next heq =>
        simp only [Bool.and_eq_true, beq_iff_eq] at heq
        have e := h.hash a b ha hb heq.1
        have hsz : (A.descendants a).length ≤ k :=
          Nat.le_trans (List.Sublist.length_le (hA.descendants_sublist ha)) hk
        have hr := h.subtrees hA hB k a b M hM ha hb e hsz
        refine ⟨(closed_true _ _).toIf.matchSubtrees k a b M (hM.toIf _) trivial fun _ _ => trivial, hst', ?_⟩
        rcases hp with hp | ⟨hf, p, hp, ht⟩
        · exact .inl (matchSubtrees_keeps k a b M _ hp)
        by_cases hax : A.Anc a x
        · exact .inl (hr.2 hax (.inr fun p hp => ⟨fun hh => (hf p hp).1 hh.2, fun hh => (hf p hp).2 hh.2⟩))
        · have hby : ¬ B.Anc b y := fun hh => hax ((h.above _ _ ha hb e).2 hh)
          refine .inr ⟨fun p hp => ?_, p, ?_, ht⟩
          · rcases hr.1 p hp with hp | hp
            · exact hf p hp
            · exact ⟨fun hh => hax (hp.1.trans hh), fun hh => hby (hp.2.trans hh)⟩
          · rcases List.mem_cons.1 hp with rfl | hp
            · exact absurd ht.ancA hax
            · exact hp
      · next hne =>
        split
        · next hopq =>
          -- one of the two is opaque
          have hadd : ∀ M' : Matching, M' = (if ((DiffTree.ofArena hashNode A ra).kind a ==
                (DiffTree.ofArena hashNode B rb).kind b) = true then M.add a b else M) →
              Pending A B ra rb x y (st, M') := by
            rintro _ rfl
            split
            · next hk =>
              rw [beq_iff_eq] at hk
              have hk : (A.data a).kind = (B.data b).kind := hk
              have hop := h.apart a b ha hb hk
              have hboth : (A.data a).props.isOpaque = true ∧ (B.data b).props.isOpaque = true := by
                rw [Bool.or_eq_true] at hopq
                rcases hopq with h1 | h1
                · exact ⟨h1, hop ▸ h1⟩
                · exact ⟨hop.trans h1, h1⟩
              have hgood : (M.add a b).Good (fun _ _ => True) := by
                obtain ⟨_, hin1, hin2⟩ := not_contains hin
                exact hM.add hin1 hin2 trivial
              refine ⟨hgood, hst', ?_⟩
              rcases hp with hp | ⟨hf, p, hp, ht⟩
              · exact .inl (Matching.pairs_add_sub _ _ _ _ hp)
              by_cases hax : A.Anc a x
              · have : a = x := by
                  apply Classical.byContradiction
                  intro hne
                  rw [h.pathA a ha hax hne] at hboth
                  cases hboth.1
                subst this
                have := h.onlyB hboth.1 b hb hk
                subst this
                exact .inl (List.mem_append.2 (.inr (List.mem_singleton.2 rfl)))
              by_cases hby : B.Anc b y
              · have : b = y := by
                  apply Classical.byContradiction
                  intro hne
                  rw [h.pathB b hb hby hne] at hboth
                  cases hboth.2
                subst this
                have := h.onlyA hboth.2 a ha hk
                subst this
                exact absurd .refl hax
              refine .inr ⟨fun p hp => ?_, p, ?_, ht⟩
              · rcases List.mem_append.1 hp with hp | hp
                · exact hf p hp
                · rw [List.mem_singleton] at hp; subst hp; exact ⟨hax, hby⟩
              · rcases List.mem_cons.1 hp with rfl | hp
                · exact absurd ht.ancA hax
                · exact hp
            · next hk =>
              refine ⟨hM, hst', ?_⟩
              rcases hp with hp | ⟨hf, p, hp, ht⟩
              · exact .inl hp
              · refine .inr ⟨hf, p, ?_, ht⟩
                rcases List.mem_cons.1 hp with rfl | hp
                · exfalso
                  rw [Bool.or_eq_true] at hopq
                  have hkxy : (A.data x).kind = (B.data y).kind := by
                    rcases h.hit with e | e
                    · rw [hA.shape_eq, hB.shape_eq] at e
                      injection e
                    · exact e.1
                  rcases ht.first with ⟨e1, e2⟩ | ⟨c, d, hc, hd, hcd, ht'⟩
                  · simp only at e1 e2
                    subst e1; subst e2
                    apply hk
                    rw [beq_iff_eq]
                    exact hkxy
                  · rcases hopq with h1 | h1
                    · have : a ≠ x := by
                        rintro rfl; exact not_anc_parent hA hc ht'.ancA
                      rw [show (DiffTree.ofArena hashNode A ra).isOpaque a = false from
                        h.pathA a ha ht.ancA this] at h1
                      cases h1
                    · have : b ≠ y := by
                        rintro rfl; exact not_anc_parent hB hd ht'.ancB
                      rw [show (DiffTree.ofArena hashNode B rb).isOpaque b = false from
                        h.pathB b hb ht.ancB this] at h1
                      cases h1
                · exact hp
          exact hadd _ rfl
        · next hopq =>
          refine ⟨hM, ?_, ?_⟩
          · intro p hp
            rcases List.mem_append.1 hp with hp | hp
            · rw [List.mem_reverse, mem_childCandidates] at hp
              exact ⟨.step ((hA.mem_iff _ _).1 hp.1) ha, .step ((hB.mem_iff _ _).1 hp.2.1) hb⟩
            · exact hst' p hp
          · rcases hp with hp | ⟨hf, p, hp, ht⟩
            · exact .inl hp
            · refine .inr ⟨hf, ?_⟩
              rcases List.mem_cons.1 hp with rfl | hp
              · rcases ht.first with ⟨e1, e2⟩ | ⟨c, d, hc, hd, hcd, ht'⟩
                · exfalso
                  simp only at e1 e2
                  subst e1; subst e2
                  rcases h.hit with h2 | ⟨_, h2⟩
                  · have h1 := hash_of_shape (hashNode := hashNode) (ra := ra) (rb := rb) hA hB _ _ h2
                    rw [hA.shape_eq, hB.shape_eq] at h2
                    injection h2 with h2
                    apply hne
                    rw [Bool.and_eq_true, beq_iff_eq, beq_iff_eq]
                    exact ⟨h1, h2⟩
                  · apply hopq
                    rw [show (DiffTree.ofArena hashNode A ra).isOpaque _ = true from h2]
                    rfl
                · refine ⟨(c, d), List.mem_append.2 (.inl ?_), ht'⟩
                  rw [List.mem_reverse, mem_childCandidates]
                  refine ⟨(hA.mem_iff _ _).2 hc, (hB.mem_iff _ _).2 hd, ?_, .inr hcd⟩
                  rw [Matching.containsB_false]
                  cases e2 : M.getA d with
                  | none => rfl
                  | some z => exact absurd ht'.ancB (hf (z, d) ((hM.getA _ _).1 e2)).2
              · exact ⟨p, List.mem_append.2 (.inr hp), ht⟩

/-- The two nodes are matched. -/
theorem matched : (x, y) ∈ (diffMatching (DiffTree.ofArena hashNode A ra)
    (DiffTree.ofArena hashNode B rb)).pairs := by
  apply diffMatching_keeps
  have h1 := C39_candidate_loop_terminates hashNode (ra := ra) (rb := rb) hA hB Config.diff Matching.empty
    _ (Nat.le_refl _)
  have hk : (A.descendants ra).length ≤
      matchDepth (DiffTree.ofArena hashNode A ra) (DiffTree.ofArena hashNode B rb) := by
    show _ ≤ (A.descendants ra).length + (B.descendants rb).length + 1
    omega
  have h2 : ∀ n, Pending A B ra rb x y (steps (topDownStep (DiffTree.ofArena hashNode A ra)
      (DiffTree.ofArena hashNode B rb) Config.diff (matchDepth (DiffTree.ofArena hashNode A ra)
        (DiffTree.ofArena hashNode B rb))) n ([(ra, rb)], Matching.empty)) := by
    intro n
    have h3 : ∀ s, Pending A B ra rb x y s → Pending A B ra rb x y (steps (topDownStep
        (DiffTree.ofArena hashNode A ra) (DiffTree.ofArena hashNode B rb) Config.diff (matchDepth
        (DiffTree.ofArena hashNode A ra) (DiffTree.ofArena hashNode B rb))) n s) := by
      induction n with
      | zero => exact fun s hs => hs
      | succ n ih => exact fun s hs => ih _ (h.step hA hB hk s hs)
    apply h3
    refine ⟨Matching.Good.empty _, ?_, .inr ⟨?_, (ra, rb), by simp, h.trail⟩⟩
    · intro p hp
      rw [List.mem_singleton] at hp; subst hp; exact ⟨.refl, .refl⟩
    · intro p hp; cases hp
  have h3 := h2 ((A.descendants ra).length * (B.descendants rb).length)
  rw [h1] at h3
  rcases h3.2.2 with h4 | ⟨_, p, hp, _⟩
  · exact h4
  · cases hp

end Sole
end Hotmeal
