import Verif.Lemmas.Same

set_option autoImplicit false
set_option linter.unusedSectionVars false

/-!
# The matching of two trees of the same structure with different texts and attributes
-/

namespace Hotmeal

variable {H : Type} [DecidableEq H]

/-! ### The candidate loop, one stretch of its stack at a time -/

section
variable {σ : Type}

/-- Working off the candidates `st` turns `M` into `M'`, whatever lies below them on the stack. -/
def Clears (TA TB : DiffTree H) (cfg : Config) (d : Nat) (st : List (Nat × Nat)) (M M' : Matching) : Prop :=
  ∃ k, ∀ rest, steps (topDownStep TA TB cfg d) k (st ++ rest, M) = (rest, M')

variable {TA TB : DiffTree H} {cfg : Config} {d : Nat}

theorem Clears.nil (M : Matching) : Clears TA TB cfg d [] M M := ⟨0, fun _ => rfl⟩

theorem Clears.append {s t : List (Nat × Nat)} {M M' M'' : Matching} (h : Clears TA TB cfg d s M M')
    (h' : Clears TA TB cfg d t M' M'') : Clears TA TB cfg d (s ++ t) M M'' := by
  obtain ⟨k, hk⟩ := h
  obtain ⟨k', hk'⟩ := h'
  refine ⟨k + k', fun rest => ?_⟩
  rw [steps_add, List.append_assoc, hk, hk']

theorem Clears.cons {p : Nat × Nat} {t : List (Nat × Nat)} {M M' M'' : Matching}
    (h : Clears TA TB cfg d [p] M M') (h' : Clears TA TB cfg d t M' M'') :
    Clears TA TB cfg d (p :: t) M M'' := h.append h'

theorem Clears.step {p : Nat × Nat} {s : List (Nat × Nat)} {M M' M'' : Matching}
    (e : ∀ rest, topDownStep TA TB cfg d (p :: rest, M) = (s ++ rest, M'))
    (h : Clears TA TB cfg d s M' M'') : Clears TA TB cfg d [p] M M'' := by
  obtain ⟨k, hk⟩ := h
  refine ⟨k + 1, fun rest => ?_⟩
  show steps _ k (topDownStep TA TB cfg d (p :: rest, M)) = _
  rw [e, hk]

/-- A pair with a matched node is dropped. -/
theorem Clears.skip {a b : Nat} {M : Matching} (h : (M.containsA a || M.containsB b) = true) :
    Clears TA TB cfg d [(a, b)] M M :=
  .step (s := []) (fun rest => by simp only [topDownStep]; rw [if_pos h]; rfl) (.nil M)

theorem Clears.equal {a b : Nat} {M : Matching} (h : (M.containsA a || M.containsB b) = false)
    (hh : cfg.minHeight = 0) (he : TA.hash a = TB.hash b) (hk : TA.kind a = TB.kind b) :
    Clears TA TB cfg d [(a, b)] M (matchSubtrees TA TB d a b M) := by
  refine .step (s := []) (fun rest => ?_) (.nil _)
  simp only [topDownStep]
  rw [if_neg (by simp [h]), if_neg (by omega), if_pos (by simp [he, hk])]
  rfl

theorem Clears.expand {a b : Nat} {M M' : Matching} (h : (M.containsA a || M.containsB b) = false)
    (hh : cfg.minHeight = 0) (he : ¬ (TA.hash a = TB.hash b ∧ TA.kind a = TB.kind b))
    (ho : TA.isOpaque a = false) (ho' : TB.isOpaque b = false)
    (hc : Clears TA TB cfg d (childCandidates TA TB M a b).reverse M M') :
    Clears TA TB cfg d [(a, b)] M M' := by
  refine .step (fun rest => ?_) hc
  simp only [topDownStep]
  rw [if_neg (by simp [h]), if_neg (by omega), if_neg (by simpa using he), if_neg (by simp [ho, ho'])]

end

variable {hashNode : HKind → Option Str → List H → H} {A B : Arena TData} {ra rb : Nat}

theorem Clears.topDown (hA : A.WF) (hB : B.WF) {cfg : Config} {M M' : Matching}
    (h : Clears (DiffTree.ofArena hashNode A ra) (DiffTree.ofArena hashNode B rb) cfg
      (matchDepth (DiffTree.ofArena hashNode A ra) (DiffTree.ofArena hashNode B rb)) [(ra, rb)] M M') :
    topDown (DiffTree.ofArena hashNode A ra) (DiffTree.ofArena hashNode B rb) cfg M = M' := by
  obtain ⟨k, hk⟩ := h
  have h1 := C39_candidate_loop_terminates hashNode (ra := ra) (rb := rb) hA hB cfg M
    (k + (A.descendants ra).length * (B.descendants rb).length) (by omega)
  rw [steps_add] at h1
  have h2 := hk []
  rw [List.append_nil] at h2
  rw [h2, steps_nil] at h1
  exact (Prod.ext_iff.1 h1).2.symm

/-! ### Places -/

/-- Nodes of the two trees on the same level. -/
inductive Level (A B : Arena TData) (ra rb : Nat) : Nat → Nat → Prop
  | root : Level A B ra rb ra rb
  | child {p q a b : Nat} (h : Level A B ra rb p q) (ha : A.parent a = some p)
      (hb : B.parent b = some q) : Level A B ra rb a b

theorem Corr.level (hA : A.WF) (hB : B.WF) {a b : Nat} (h : Corr A B ra rb a b) : Level A B ra rb a b := by
  induction h with
  | root => exact .root
  | child _ _ ha hb ih =>
    have h1 := (hA.mem_iff _ _).1 (List.mem_of_getElem? ha)
    have h2 := (hB.mem_iff _ _).1 (List.mem_of_getElem? hb)
    exact .child ih h1 h2

theorem Level.ancA {a b : Nat} (h : Level A B ra rb a b) : A.Anc ra a := by
  induction h with
  | root => exact .refl
  | child _ ha _ ih => exact .step ha ih

theorem Level.ancB {a b : Nat} (h : Level A B ra rb a b) : B.Anc rb b := by
  induction h with
  | root => exact .refl
  | child _ _ hb ih => exact .step hb ih

theorem Corr.inv (hA : A.WF) (hB : B.WF) {a b : Nat} (h : Corr A B ra rb a b) :
    (a = ra ∧ b = rb) ∨ ∃ p q i : Nat, Corr A B ra rb p q ∧ A.parent a = some p ∧ B.parent b = some q ∧
      (A.children p)[i]? = some a ∧ (B.children q)[i]? = some b := by
  cases h with
  | root => exact .inl ⟨rfl, rfl⟩
  | child h _ ha hb =>
    have h1 := (hA.mem_iff _ _).1 (List.mem_of_getElem? ha)
    have h2 := (hB.mem_iff _ _).1 (List.mem_of_getElem? hb)
    exact .inr ⟨_, _, _, h, h1, h2, ha, hb⟩

theorem Corr.funB (hA : A.WF) (hB : B.WF) {a b : Nat} (h : Corr A B ra rb a b) :
    ∀ b', Corr A B ra rb a b' → b = b' := by
  induction h with
  | root =>
    intro b' h'
    rcases h'.inv hA hB with ⟨_, rfl⟩ | ⟨p, q, i, hc, hp, _⟩
    · rfl
    · exact absurd (hc.ancA hA) (not_anc_parent hA hp)
  | @child p q i a b hc _ ha hb ih =>
    intro b' h'
    have hp := (hA.mem_iff _ _).1 (List.mem_of_getElem? ha)
    rcases h'.inv hA hB with ⟨rfl, rfl⟩ | ⟨p', q', i', hc', hp', hq', ha', hb'⟩
    · exact absurd (hc.ancA hA) (not_anc_parent hA hp)
    · rw [hp] at hp'; cases hp'
      have := ih q' hc'
      subst this
      have := List.nodup_getElem?_inj (hA.nodup _) ha ha'
      subst this
      rw [hb] at hb'; exact Option.some.inj hb'

theorem Corr.funA (hA : A.WF) (hB : B.WF) {a b : Nat} (h : Corr A B ra rb a b) :
    ∀ a', Corr A B ra rb a' b → a = a' := by
  induction h with
  | root =>
    intro b' h'
    rcases h'.inv hA hB with ⟨rfl, _⟩ | ⟨p, q, i, hc, _, hp, _⟩
    · rfl
    · exact absurd (hc.ancB hB) (not_anc_parent hB hp)
  | @child p q i a b hc _ ha hb ih =>
    intro a' h'
    have hq := (hB.mem_iff _ _).1 (List.mem_of_getElem? hb)
    rcases h'.inv hA hB with ⟨rfl, rfl⟩ | ⟨p', q', i', hc', hp', hq', ha', hb'⟩
    · exact absurd (hc.ancB hB) (not_anc_parent hB hq)
    · rw [hq] at hq'; cases hq'
      have := ih p' hc'
      subst this
      have := List.nodup_getElem?_inj (hB.nodup _) hb hb'
      subst this
      rw [ha] at ha'; exact Option.some.inj ha'

theorem Arena.Anc.first {α : Type} {A : Arena α} {a x : Nat} (h : A.Anc a x) :
    x = a ∨ ∃ c, A.parent c = some a ∧ A.Anc c x := by
  induction h with
  | refl => exact .inl rfl
  | @step x p hp h ih =>
    rcases ih with rfl | ⟨c, h1, h2⟩
    · exact .inr ⟨x, hp, .refl⟩
    · exact .inr ⟨c, h1, .step hp h2⟩

/-- Places above a place. -/
theorem Corr.upA (hA : A.WF) (hB : B.WF) {a x y : Nat} (h : Corr A B ra rb x y) (hr : A.Anc ra a)
    (ha : A.Anc a x) : ∃ b, Corr A B ra rb a b ∧ B.Anc b y := by
  induction h with
  | root =>
    rcases ha.cases' with rfl | ⟨p, hp, hap⟩
    · exact ⟨rb, .root, .refl⟩
    · exact absurd (hr.trans hap) (not_anc_parent hA hp)
  | @child p q i x y hc ho hx hy ih =>
    have hp := (hA.mem_iff _ _).1 (List.mem_of_getElem? hx)
    have hq := (hB.mem_iff _ _).1 (List.mem_of_getElem? hy)
    rcases ha.cases' with rfl | ⟨p', hp', hap⟩
    · exact ⟨y, .child hc ho hx hy, .refl⟩
    · rw [hp] at hp'; cases hp'
      obtain ⟨b, h1, h2⟩ := ih hap
      exact ⟨b, h1, .step hq h2⟩

theorem Corr.upB (hA : A.WF) (hB : B.WF) {b x y : Nat} (h : Corr A B ra rb x y) (hr : B.Anc rb b)
    (hb : B.Anc b y) : ∃ a, Corr A B ra rb a b ∧ A.Anc a x := by
  induction h with
  | root =>
    rcases hb.cases' with rfl | ⟨p, hp, hap⟩
    · exact ⟨ra, .root, .refl⟩
    · exact absurd (hr.trans hap) (not_anc_parent hB hp)
  | @child p q i x y hc ho hx hy ih =>
    have hp := (hA.mem_iff _ _).1 (List.mem_of_getElem? hx)
    have hq := (hB.mem_iff _ _).1 (List.mem_of_getElem? hy)
    rcases hb.cases' with rfl | ⟨p', hp', hap⟩
    · exact ⟨x, .child hc ho hx hy, .refl⟩
    · rw [hq] at hp'; cases hp'
      obtain ⟨b, h1, h2⟩ := ih hap
      exact ⟨b, h1, .step hp h2⟩

/-! ### Trees that differ in texts and attributes -/

/-- Same kind, neither opaque, and at least half of the attribute names in common. -/
structure TData.Similar (d e : TData) : Prop where
  kind : d.kind = e.kind
  clear : d.props.isOpaque = false
  clear' : e.props.isOpaque = false
  props : (d.props.similarity e.props).ge ⟨1, 2⟩ = true

variable (hashNode A B ra rb) in
/-- The two trees have the same structure. A node whose subtree has changed has its old subtree
nowhere on its level of the new tree, and its new subtree nowhere on that level of the old tree. -/
structure Settled : Prop where
  alike : Arena.Alike TData.Similar A B ra rb
  apart : ∀ a b, Level A B ra rb a b →
    (DiffTree.ofArena hashNode A ra).hash a = (DiffTree.ofArena hashNode B rb).hash b →
    (∀ y, Corr A B ra rb a y →
      (DiffTree.ofArena hashNode A ra).hash a = (DiffTree.ofArena hashNode B rb).hash y) ∧
    (∀ x, Corr A B ra rb x b →
      (DiffTree.ofArena hashNode A ra).hash x = (DiffTree.ofArena hashNode B rb).hash b)

theorem Arena.Alike.similar {a b : Nat} (h : Arena.Alike TData.Similar A B a b) :
    (A.data a).Similar (B.data b) := by cases h with | node data _ _ => exact data

theorem Arena.Alike.kids {R : TData → TData → Prop} {a b : Nat} (h : Arena.Alike R A B a b) {i c : Nat}
    (hc : (A.children a)[i]? = some c) : ∃ d, (B.children b)[i]? = some d ∧ Arena.Alike R A B c d := by
  cases h with
  | node _ len kids =>
    have hlt := (List.getElem?_eq_some_iff.1 hc).1
    obtain ⟨d, hd⟩ : ∃ d, (B.children b)[i]? = some d := ⟨_, List.getElem?_eq_getElem (by omega)⟩
    exact ⟨d, hd, kids i c d hc hd⟩

theorem Arena.Alike.kids' {R : TData → TData → Prop} {a b : Nat} (h : Arena.Alike R A B a b) {i d : Nat}
    (hd : (B.children b)[i]? = some d) : ∃ c, (A.children a)[i]? = some c ∧ Arena.Alike R A B c d := by
  cases h with
  | node _ len kids =>
    have hlt := (List.getElem?_eq_some_iff.1 hd).1
    obtain ⟨c, hc⟩ : ∃ c, (A.children a)[i]? = some c := ⟨_, List.getElem?_eq_getElem (by omega)⟩
    exact ⟨c, hc, kids i c d hc hd⟩

theorem corr_allA (hA : A.WF) (hr : Arena.Alike TData.Similar A B ra rb) {a : Nat} (h : A.Anc ra a) :
    ∃ b, Corr A B ra rb a b := by
  induction h with
  | refl => exact ⟨rb, .root⟩
  | @step a p hp h ih =>
    obtain ⟨q, hq⟩ := ih
    obtain ⟨i, hi⟩ := List.mem_iff_getElem?.1 ((hA.mem_iff _ _).2 hp)
    obtain ⟨d, hd, _⟩ := (hq.alike hr).kids hi
    exact ⟨d, .child hq (hq.alike hr).similar.clear hi hd⟩

theorem corr_allB (hB : B.WF) (hr : Arena.Alike TData.Similar A B ra rb) {b : Nat} (h : B.Anc rb b) :
    ∃ a, Corr A B ra rb a b := by
  induction h with
  | refl => exact ⟨ra, .root⟩
  | @step b q hq h ih =>
    obtain ⟨p, hp⟩ := ih
    obtain ⟨i, hi⟩ := List.mem_iff_getElem?.1 ((hB.mem_iff _ _).2 hq)
    obtain ⟨c, hc, _⟩ := (hp.alike hr).kids' hi
    exact ⟨c, .child hp (hp.alike hr).similar.clear hc hi⟩

variable (hashNode A B ra rb) in
/-- All places below `a` with unchanged subtree are matched. -/
def DoneA (M : Matching) (a : Nat) : Prop := ∀ x y, A.Anc a x → Corr A B ra rb x y →
  (DiffTree.ofArena hashNode A ra).hash x = (DiffTree.ofArena hashNode B rb).hash y → (x, y) ∈ M.pairs

variable (hashNode A B ra rb) in
/-- The same for a node of the other tree. -/
def DoneB (M : Matching) (b : Nat) : Prop := ∀ x y, B.Anc b y → Corr A B ra rb x y →
  (DiffTree.ofArena hashNode A ra).hash x = (DiffTree.ofArena hashNode B rb).hash y → (x, y) ∈ M.pairs

theorem DoneA.mono {M M' : Matching} {a : Nat} (h : DoneA hashNode A B ra rb M a)
    (hs : ∀ p ∈ M.pairs, p ∈ M'.pairs) : DoneA hashNode A B ra rb M' a :=
  fun x y h1 h2 h3 => hs _ (h x y h1 h2 h3)

theorem DoneB.mono {M M' : Matching} {a : Nat} (h : DoneB hashNode A B ra rb M a)
    (hs : ∀ p ∈ M.pairs, p ∈ M'.pairs) : DoneB hashNode A B ra rb M' a :=
  fun x y h1 h2 h3 => hs _ (h x y h1 h2 h3)

theorem DoneA.toB (hA : A.WF) (hB : B.WF) {M : Matching} {a b : Nat} (h : DoneA hashNode A B ra rb M a)
    (hc : Corr A B ra rb a b) : DoneB hashNode A B ra rb M b := by
  intro x y h1 h2 h3
  obtain ⟨a', h4, h5⟩ := h2.upB hA hB (hc.ancB hB) h1
  have := hc.funA hA hB a' h4
  subst this
  exact h x y h5 h2 h3

theorem not_contains {M : Matching} {a b : Nat} (h : ¬ (M.containsA a || M.containsB b) = true) :
    (M.containsA a || M.containsB b) = false ∧ M.containsA a = false ∧ M.containsB b = false := by
  cases h1 : M.containsA a <;> cases h2 : M.containsB b <;> simp_all

theorem mem_childCandidates {TA TB : DiffTree H} {M : Matching} {a b : Nat} {p : Nat × Nat} :
    p ∈ childCandidates TA TB M a b ↔ p.1 ∈ TA.children a ∧ p.2 ∈ TB.children b ∧
      M.containsB p.2 = false ∧ (TA.hash p.1 = TB.hash p.2 ∨ TA.kind p.1 = TB.kind p.2) := by
  obtain ⟨x, y⟩ := p
  simp only [childCandidates, List.mem_flatMap, List.mem_map, List.mem_filter, Bool.and_eq_true,
    Bool.not_eq_true', Bool.or_eq_true, beq_iff_eq, Prod.mk.injEq]
  constructor
  · rintro ⟨_, h1, _, ⟨h2, h3, h4⟩, rfl, rfl⟩
    exact ⟨h1, h2, h3, h4⟩
  · rintro ⟨h1, h2, h3, h4⟩
    exact ⟨x, h1, y, ⟨h2, h3, h4⟩, rfl, rfl⟩

/-! ### The order in which candidates are worked off -/

theorem posIn_getElem {l : List Nat} (hn : l.Nodup) {i x : Nat} (h : l[i]? = some x) :
    Arena.posIn l x = i :=
  List.nodup_getElem?_inj hn (Arena.getElem?_posIn (List.mem_of_getElem? h)) h

theorem pairwise_posIn {l : List Nat} (hn : l.Nodup) :
    l.Pairwise fun x y => Arena.posIn l x < Arena.posIn l y := by
  rw [List.pairwise_iff_getElem]
  intro i j hi hj h
  rw [posIn_getElem hn (List.getElem?_eq_getElem hi), posIn_getElem hn (List.getElem?_eq_getElem hj)]
  exact h

/-- Of the pairs of children, `(as[m], bs[m])` is worked off before `(as[i], bs[j])` if `m` is the larger
one of `i ≠ j`. -/
theorem diagonal_first {as bs : List Nat} (ha : as.Nodup) (hb : bs.Nodup) (P : Nat → Nat → Bool)
    {l1 l2 : List (Nat × Nat)} {p : Nat × Nat} {i j m x y : Nat}
    (e : (as.flatMap fun x => (bs.filter (P x)).map fun y => (x, y)).reverse = l1 ++ p :: l2)
    (hi : as[i]? = some p.1) (hj : bs[j]? = some p.2) (hne : i ≠ j) (him : i ≤ m) (hjm : j ≤ m)
    (hx : as[m]? = some x) (hy : bs[m]? = some y) (hP : P x y = true) : (x, y) ∈ l1 := by
  have hpw : (as.flatMap fun x => (bs.filter (P x)).map fun y => (x, y)).Pairwise fun p q =>
      Arena.posIn as p.1 < Arena.posIn as q.1 ∨
        (Arena.posIn as p.1 = Arena.posIn as q.1 ∧ Arena.posIn bs p.2 < Arena.posIn bs q.2) := by
    rw [List.pairwise_flatMap]
    constructor
    · intro x _
      rw [List.pairwise_map]
      exact ((pairwise_posIn hb).sublist List.filter_sublist).imp fun h => .inr ⟨rfl, h⟩
    · refine (pairwise_posIn ha).imp ?_
      intro x y h p hp q hq
      obtain ⟨_, _, rfl⟩ := List.mem_map.1 hp
      obtain ⟨_, _, rfl⟩ := List.mem_map.1 hq
      exact .inl h
  have hmem : (x, y) ∈ l1 ++ p :: l2 := by
    rw [← e, List.mem_reverse, List.mem_flatMap]
    exact ⟨x, List.mem_of_getElem? hx, List.mem_map.2 ⟨y, List.mem_filter.2
      ⟨List.mem_of_getElem? hy, hP⟩, rfl⟩⟩
  rw [← List.pairwise_reverse, e, List.pairwise_append, List.pairwise_cons] at hpw
  rw [List.mem_append, List.mem_cons] at hmem
  have e1 := posIn_getElem ha hi
  have e2 := posIn_getElem hb hj
  have e3 := posIn_getElem ha hx
  have e4 := posIn_getElem hb hy
  rcases hmem with h | h | h
  · exact h
  · subst h
    simp only at e1 e2
    omega
  · have := hpw.2.1.1 (x, y) h
    simp only at this
    omega

namespace Settled

variable (hA : A.WF) (hB : B.WF) (hs : Settled hashNode A B ra rb)
include hA hB hs

theorem clearA {a : Nat} (h : A.Anc ra a) : (DiffTree.ofArena hashNode A ra).isOpaque a = false := by
  obtain ⟨b, hb⟩ := corr_allA hA hs.alike h
  exact (hb.alike hs.alike).similar.clear

theorem clearB {b : Nat} (h : B.Anc rb b) : (DiffTree.ofArena hashNode B rb).isOpaque b = false := by
  obtain ⟨a, ha⟩ := corr_allB hB hs.alike h
  exact (ha.alike hs.alike).similar.clear'

/-- Candidates at different places are worked off without effect once one of them is done. -/
theorem apart_clears {d : Nat} {M : Matching} (hM : M.Good (Corr A B ra rb)) (a : Nat) :
    ∀ b, Level A B ra rb a b → ¬ Corr A B ra rb a b →
      DoneA hashNode A B ra rb M a ∨ DoneB hashNode A B ra rb M b →
      Clears (DiffTree.ofArena hashNode A ra) (DiffTree.ofArena hashNode B rb) Config.diff d [(a, b)] M M := by
  refine hA.induct_down (P := fun a => ∀ b, Level A B ra rb a b → ¬ Corr A B ra rb a b →
      DoneA hashNode A B ra rb M a ∨ DoneB hashNode A B ra rb M b →
      Clears (DiffTree.ofArena hashNode A ra) (DiffTree.ofArena hashNode B rb) Config.diff d
        [(a, b)] M M) ?_ a
  intro a ih b hl hc hd
  by_cases hco : (M.containsA a || M.containsB b) = true
  · exact .skip hco
  obtain ⟨hco, hcA, hcB⟩ := not_contains hco
  rw [Matching.containsA_false] at hcA
  rw [Matching.containsB_false] at hcB
  by_cases he : (DiffTree.ofArena hashNode A ra).hash a = (DiffTree.ofArena hashNode B rb).hash b
  · exfalso
    obtain ⟨h1, h2⟩ := hs.apart a b hl he
    rcases hd with hd | hd
    · obtain ⟨y, hy⟩ := corr_allA hA hs.alike hl.ancA
      rw [(hM.getB _ _).2 (hd a y .refl hy (h1 y hy))] at hcA; cases hcA
    · obtain ⟨x, hx⟩ := corr_allB hB hs.alike hl.ancB
      rw [(hM.getA _ _).2 (hd x b .refl hx (h2 x hx))] at hcB; cases hcB
  · refine .expand hco rfl (fun h => he h.1) (hs.clearA hA hB hl.ancA) (hs.clearB hA hB hl.ancB) ?_
    have hall : ∀ l : List (Nat × Nat), (∀ p ∈ l, p.1 ∈ A.children a ∧ p.2 ∈ B.children b) →
        Clears (DiffTree.ofArena hashNode A ra) (DiffTree.ofArena hashNode B rb) Config.diff d l M M := by
      intro l
      induction l with
      | nil => intro _; exact .nil M
      | cons p l ihl =>
        intro hl'
        obtain ⟨h1, h2⟩ := hl' p (by simp)
        have h1' := (hA.mem_iff _ _).1 h1
        have h2' := (hB.mem_iff _ _).1 h2
        refine .cons (ih p.1 h1 p.2 (.child hl h1' h2') ?_ ?_) (ihl fun p hp => hl' p (by simp [hp]))
        · intro hcc
          rcases hcc.inv hA hB with ⟨e, _⟩ | ⟨p', q', _, hc', hp', hq', _⟩
          · rw [e] at h1'; exact not_anc_parent hA h1' hl.ancA
          · rw [h1'] at hp'; rw [h2'] at hq'; cases hp'; cases hq'; exact hc hc'
        · rcases hd with hd | hd
          · exact .inl fun x y hx => hd x y ((Arena.Anc.step h1' .refl).trans hx)
          · exact .inr fun x y hx => hd x y ((Arena.Anc.step h2' .refl).trans hx)
    apply hall
    intro p hp
    rw [List.mem_reverse, mem_childCandidates] at hp
    exact ⟨hp.1, hp.2.1⟩

/-- What working off a pair at the same place does. -/
structure After (hashNode : HKind → Option Str → List H → H) (A B : Arena TData) (ra rb : Nat)
    (l : List (Nat × Nat)) (M M' : Matching) : Prop where
  good : M'.Good (Corr A B ra rb)
  keeps : ∀ p ∈ M.pairs, p ∈ M'.pairs
  below : ∀ p ∈ M'.pairs, p ∈ M.pairs ∨ ∃ q ∈ l, Corr A B ra rb q.1 q.2 ∧ A.Anc q.1 p.1
  done : ∀ q ∈ l, Corr A B ra rb q.1 q.2 → DoneA hashNode A B ra rb M' q.1

/-- Working off a list of candidates in which a pair at different places comes after the pair at the
place of one of its nodes. -/
theorem list_clears {d : Nat} : ∀ (l : List (Nat × Nat)) (M : Matching), M.Good (Corr A B ra rb) → l.Nodup →
    (∀ p ∈ l, Level A B ra rb p.1 p.2) →
    (∀ p ∈ l, ∀ q ∈ l, A.Anc p.1 q.1 → p.1 = q.1) →
    (∀ p ∈ l, ∀ (M : Matching), M.Good (Corr A B ra rb) → Corr A B ra rb p.1 p.2 →
      (∀ q ∈ M.pairs, ¬ A.Anc p.1 q.1) →
      ∃ M', Clears (DiffTree.ofArena hashNode A ra) (DiffTree.ofArena hashNode B rb) Config.diff d [p] M M' ∧
        After hashNode A B ra rb [p] M M') →
    (∀ p ∈ l, Corr A B ra rb p.1 p.2 → ∀ q ∈ M.pairs, ¬ A.Anc p.1 q.1) →
    (∀ l1 p l2, l = l1 ++ p :: l2 → ¬ Corr A B ra rb p.1 p.2 →
      DoneA hashNode A B ra rb M p.1 ∨ DoneB hashNode A B ra rb M p.2 ∨
      ∃ q ∈ l1, Corr A B ra rb q.1 q.2 ∧ (q.1 = p.1 ∨ q.2 = p.2)) →
    ∃ M', Clears (DiffTree.ofArena hashNode A ra) (DiffTree.ofArena hashNode B rb) Config.diff d l M M' ∧
      After hashNode A B ra rb l M M' := by
  intro l
  induction l with
  | nil =>
    intro M hM _ _ _ _ _ _
    exact ⟨M, .nil M, hM, fun _ h => h, fun _ h => .inl h, by simp⟩
  | cons p l ih =>
    intro M hM hn hlev hanti hrun hfresh hord
    rw [List.nodup_cons] at hn
    have hsame : ∀ q ∈ l, Corr A B ra rb p.1 p.2 → Corr A B ra rb q.1 q.2 → q.1 ≠ p.1 := by
      intro q hq h1 h2 e
      have := h1.funB hA hB q.2 (e ▸ h2)
      exact hn.1 (by rw [show p = q from Prod.ext e.symm this]; exact hq)
    by_cases hc : Corr A B ra rb p.1 p.2
    · obtain ⟨M1, hcl, ha⟩ := hrun p (by simp) M hM hc (hfresh p (by simp) hc)
      have hf : ∀ q ∈ l, Corr A B ra rb q.1 q.2 → ∀ r ∈ M1.pairs, ¬ A.Anc q.1 r.1 := by
        intro q hq hqc r hr
        rcases ha.below r hr with h | ⟨r', hr', h1, h2⟩
        · exact hfresh q (by simp [hq]) hqc r h
        · rw [List.mem_singleton] at hr'
          subst hr'
          intro h3
          rcases Arena.anc_total h2 h3 with h | h
          · exact hsame q hq h1 hqc (hanti r' (by simp) q (by simp [hq]) h).symm
          · exact hsame q hq h1 hqc (hanti q (by simp [hq]) r' (by simp) h)
      have ho : ∀ l1 q l2, l = l1 ++ q :: l2 → ¬ Corr A B ra rb q.1 q.2 →
          DoneA hashNode A B ra rb M1 q.1 ∨ DoneB hashNode A B ra rb M1 q.2 ∨
          ∃ r ∈ l1, Corr A B ra rb r.1 r.2 ∧ (r.1 = q.1 ∨ r.2 = q.2) := by
        intro l1 q l2 e hqc
        rcases hord (p :: l1) q l2 (by rw [e]; rfl) hqc with h | h | ⟨r, hr, h1, h2⟩
        · exact .inl (h.mono ha.keeps)
        · exact .inr (.inl (h.mono ha.keeps))
        · rcases List.mem_cons.1 hr with rfl | hr
          · have hd := ha.done r (by simp) h1
            rcases h2 with h2 | h2
            · exact .inl (h2 ▸ hd)
            · exact .inr (.inl (h2 ▸ hd.toB hA hB h1))
          · exact .inr (.inr ⟨r, hr, h1, h2⟩)
      obtain ⟨M2, hcl2, ha2⟩ := ih M1 ha.good hn.2 (fun q hq => hlev q (by simp [hq]))
        (fun q hq r hr => hanti q (by simp [hq]) r (by simp [hr]))
        (fun q hq => hrun q (by simp [hq])) hf ho
      refine ⟨M2, .cons hcl hcl2, ha2.good, fun q hq => ha2.keeps q (ha.keeps q hq), ?_, ?_⟩
      · intro q hq
        rcases ha2.below q hq with h | ⟨r, hr, h1, h2⟩
        · rcases ha.below q h with h | ⟨r, hr, h1, h2⟩
          · exact .inl h
          · rw [List.mem_singleton] at hr
            exact .inr ⟨r, by simp [hr], h1, h2⟩
        · exact .inr ⟨r, by simp [hr], h1, h2⟩
      · intro q hq hq'
        rcases List.mem_cons.1 hq with rfl | hq
        · exact (ha.done q (by simp) hq').mono ha2.keeps
        · exact ha2.done q hq hq'
    · have hd : DoneA hashNode A B ra rb M p.1 ∨ DoneB hashNode A B ra rb M p.2 := by
        rcases hord [] p l rfl hc with h | h | ⟨r, hr, _⟩
        · exact .inl h
        · exact .inr h
        · cases hr
      have hcl := hs.apart_clears hA hB (d := d) hM p.1 p.2 (hlev p (by simp)) hc hd
      have ho : ∀ l1 q l2, l = l1 ++ q :: l2 → ¬ Corr A B ra rb q.1 q.2 →
          DoneA hashNode A B ra rb M q.1 ∨ DoneB hashNode A B ra rb M q.2 ∨
          ∃ r ∈ l1, Corr A B ra rb r.1 r.2 ∧ (r.1 = q.1 ∨ r.2 = q.2) := by
        intro l1 q l2 e hqc
        rcases hord (p :: l1) q l2 (by rw [e]; rfl) hqc with h | h | ⟨r, hr, h1, h2⟩
        · exact .inl h
        · exact .inr (.inl h)
        · rcases List.mem_cons.1 hr with rfl | hr
          · exact absurd h1 hc
          · exact .inr (.inr ⟨r, hr, h1, h2⟩)
      obtain ⟨M2, hcl2, ha2⟩ := ih M hM hn.2 (fun q hq => hlev q (by simp [hq]))
        (fun q hq r hr => hanti q (by simp [hq]) r (by simp [hr]))
        (fun q hq => hrun q (by simp [hq])) (fun q hq => hfresh q (by simp [hq])) ho
      refine ⟨M2, .cons hcl hcl2, ha2.good, ha2.keeps, ?_, ?_⟩
      · intro q hq
        rcases ha2.below q hq with h | ⟨r, hr, h⟩
        · exact .inl h
        · exact .inr ⟨r, by simp [hr], h⟩
      · intro q hq hq'
        rcases List.mem_cons.1 hq with rfl | hq
        · exact absurd hq' hc
        · exact ha2.done q hq hq'

/-- Working off a pair at the same place. -/
theorem corr_clears {d : Nat} (hd : (A.descendants ra).length ≤ d) (a : Nat) :
    ∀ (b : Nat) (M : Matching), M.Good (Corr A B ra rb) → Corr A B ra rb a b →
      (∀ q ∈ M.pairs, ¬ A.Anc a q.1) →
      ∃ M', Clears (DiffTree.ofArena hashNode A ra) (DiffTree.ofArena hashNode B rb) Config.diff d
          [(a, b)] M M' ∧ After hashNode A B ra rb [(a, b)] M M' := by
  refine hA.induct_down (P := fun a => ∀ (b : Nat) (M : Matching), M.Good (Corr A B ra rb) →
      Corr A B ra rb a b → (∀ q ∈ M.pairs, ¬ A.Anc a q.1) →
      ∃ M', Clears (DiffTree.ofArena hashNode A ra) (DiffTree.ofArena hashNode B rb) Config.diff d
          [(a, b)] M M' ∧ After hashNode A B ra rb [(a, b)] M M') ?_ a
  intro a ih b M hM hc hfresh
  have hal := hc.alike hs.alike
  have hfreshB : ∀ q ∈ M.pairs, ¬ B.Anc b q.2 := by
    intro q hq h
    have hcq := hM.rel q.1 q.2 hq
    obtain ⟨a', h1, h2⟩ := hcq.upB hA hB (hc.ancB hB) h
    have := hc.funA hA hB a' h1
    subst this
    exact hfresh q hq h2
  have hcA : M.containsA a = false := by
    rw [Matching.containsA_false]
    cases e : M.getB a with
    | none => rfl
    | some y => exact absurd .refl (hfresh _ ((hM.getB _ _).1 e))
  have hcB : M.containsB b = false := by
    rw [Matching.containsB_false]
    cases e : M.getA b with
    | none => rfl
    | some y => exact absurd .refl (hfreshB _ ((hM.getA _ _).1 e))
  have hco : (M.containsA a || M.containsB b) = false := by rw [hcA, hcB]; rfl
  have htrue : M.Good (fun _ _ => True) := ⟨hM.getB, hM.getA, hM.nodup, fun _ _ _ => trivial⟩
  by_cases he : (DiffTree.ofArena hashNode A ra).hash a = (DiffTree.ofArena hashNode B rb).hash b
  · refine ⟨_, .equal hco rfl he hal.similar.kind, ?_⟩
    have hp := matchSubtrees_alike (hashNode := hashNode)
      (fun d e (h : TData.Similar d e) => h.clear.trans h.clear'.symm) hA hB ra rb a b d M hal
      (Nat.le_trans (hA.descendants_sublist (hc.ancA hA)).length_le hd) htrue
      (fun p hp => ⟨hfresh p hp, hfreshB p hp⟩)
    have hg := (closed_true (DiffTree.ofArena hashNode A ra)
      (DiffTree.ofArena hashNode B rb)).matchSubtrees d a b M htrue trivial
    have hcorr : ∀ x y, Corr A B a b x y → Corr A B ra rb x y := by
      intro x y h
      induction h with
      | root => exact hc
      | child _ ho ha hb ih => exact .child ih ho ha hb
    refine ⟨⟨hg.getB, hg.getA, hg.nodup, ?_⟩, fun p h => (hp p).2 (.inl h), ?_, ?_⟩
    · intro x y h
      rcases (hp _).1 h with h | h
      · exact hM.rel _ _ h
      · exact hcorr _ _ h
    · intro p h
      rcases (hp _).1 h with h | h
      · exact .inl h
      · exact .inr ⟨(a, b), by simp, hc, h.ancA hA⟩
    · intro q hq _ x y h1 h2 _
      rw [List.mem_singleton] at hq
      subst hq
      rw [hp]
      right
      obtain ⟨z, hz⟩ := corr_allA (ra := a) (rb := b) hA hal h1
      rw [h2.funB hA hB z (hcorr _ _ hz)]
      exact hz
  · have hcand : ∀ p ∈ (childCandidates (DiffTree.ofArena hashNode A ra) (DiffTree.ofArena hashNode B rb) M
        a b).reverse, A.parent p.1 = some a ∧ B.parent p.2 = some b := by
      intro p hp
      rw [List.mem_reverse, mem_childCandidates] at hp
      exact ⟨(hA.mem_iff _ _).1 hp.1, (hB.mem_iff _ _).1 hp.2.1⟩
    have hlen : (A.children a).length = (B.children b).length := by
      cases hal with | node _ len _ => exact len
    have hdiag : ∀ i x y : Nat, (A.children a)[i]? = some x → (B.children b)[i]? = some y →
        Corr A B ra rb x y ∧ (!M.containsB y && ((DiffTree.ofArena hashNode A ra).hash x ==
          (DiffTree.ofArena hashNode B rb).hash y || (DiffTree.ofArena hashNode A ra).kind x ==
          (DiffTree.ofArena hashNode B rb).kind y)) = true := by
      intro i x y hx hy
      have hxy : Corr A B ra rb x y := .child hc hal.similar.clear hx hy
      have hyp := (hB.mem_iff _ _).1 (List.mem_of_getElem? hy)
      have hm : M.containsB y = false := by
        rw [Matching.containsB_false]
        cases e : M.getA y with
        | none => rfl
        | some z => exact absurd (.step hyp .refl) (hfreshB _ ((hM.getA _ _).1 e))
      have hk : (DiffTree.ofArena hashNode A ra).kind x = (DiffTree.ofArena hashNode B rb).kind y :=
        (hxy.alike hs.alike).similar.kind
      exact ⟨hxy, by simp [hm, hk]⟩
    have hnd : (childCandidates (DiffTree.ofArena hashNode A ra) (DiffTree.ofArena hashNode B rb) M
        a b).reverse.Nodup := by
      unfold List.Nodup childCandidates
      rw [List.pairwise_reverse, List.pairwise_flatMap]
      refine ⟨fun x _ => ?_, ?_⟩
      · rw [List.pairwise_map]
        exact ((hB.nodup b).sublist List.filter_sublist).imp fun h e => h (Prod.mk.inj e).2.symm
      · refine (hA.nodup a).imp ?_
        intro x y hxy p hp q hq e
        obtain ⟨_, _, rfl⟩ := List.mem_map.1 hp
        obtain ⟨_, _, rfl⟩ := List.mem_map.1 hq
        exact hxy (Prod.mk.inj e).1.symm
    obtain ⟨M', hcl, haf⟩ := hs.list_clears hA hB (d := d) _ M hM hnd
      (fun p hp => .child (hc.level hA hB) (hcand p hp).1 (hcand p hp).2)
      (fun p hp q hq h => by
        rcases h.cases' with h | ⟨r, hr, h⟩
        · exact h
        · rw [(hcand q hq).1] at hr; cases hr
          exact absurd h (not_anc_parent hA (hcand p hp).1))
      (fun p hp M hM hpc hf => ih p.1 ((hA.mem_iff _ _).2 (hcand p hp).1) p.2 M hM hpc hf)
      (fun p hp _ q hq h => hfresh q hq ((Arena.Anc.step (hcand p hp).1 .refl).trans h))
      (by
        intro l1 p l2 e hpc
        have hp : p ∈ (childCandidates (DiffTree.ofArena hashNode A ra) (DiffTree.ofArena hashNode B rb) M
          a b).reverse := by rw [e]; simp
        obtain ⟨i, hi⟩ := List.mem_iff_getElem?.1 ((hA.mem_iff _ _).2 (hcand p hp).1)
        obtain ⟨j, hj⟩ := List.mem_iff_getElem?.1 ((hB.mem_iff _ _).2 (hcand p hp).2)
        have hne : i ≠ j := by
          rintro rfl
          exact hpc (hdiag i _ _ hi hj).1
        right; right
        rcases Nat.lt_or_ge i j with hlt | hge
        · obtain ⟨x, hx⟩ : ∃ x, (A.children a)[j]? = some x :=
            ⟨_, List.getElem?_eq_getElem (by have := (List.getElem?_eq_some_iff.1 hj).1; omega)⟩
          refine ⟨(x, p.2), ?_, (hdiag j x p.2 hx hj).1, .inr rfl⟩
          exact diagonal_first (hA.nodup a) (hB.nodup b) _ e hi hj hne (by omega) (Nat.le_refl j) hx hj
            (hdiag j x p.2 hx hj).2
        · obtain ⟨y, hy⟩ : ∃ y, (B.children b)[i]? = some y :=
            ⟨_, List.getElem?_eq_getElem (by have := (List.getElem?_eq_some_iff.1 hi).1; omega)⟩
          refine ⟨(p.1, y), ?_, (hdiag i p.1 y hi hy).1, .inl rfl⟩
          exact diagonal_first (hA.nodup a) (hB.nodup b) _ e hi hj hne (Nat.le_refl i) (by omega) hi hy
            (hdiag i p.1 y hi hy).2)
    refine ⟨M', .expand hco rfl (fun h => he h.1) (hs.clearA hA hB (hc.ancA hA))
      (hs.clearB hA hB (hc.ancB hB)) hcl, haf.good, haf.keeps, ?_, ?_⟩
    · intro p hp
      rcases haf.below p hp with h | ⟨q, hq, h1, h2⟩
      · exact .inl h
      · exact .inr ⟨(a, b), by simp, hc, (Arena.Anc.step (hcand q hq).1 .refl).trans h2⟩
    · intro q hq _ x y h1 h2 h3
      rw [List.mem_singleton] at hq
      subst hq
      rcases Arena.Anc.first h1 with rfl | ⟨c, hcp, hcx⟩
      · exact absurd (hc.funB hA hB y h2 ▸ h3) he
      · obtain ⟨i, hi⟩ := List.mem_iff_getElem?.1 ((hA.mem_iff _ _).2 hcp)
        obtain ⟨y', hy', _⟩ := hal.kids hi
        refine haf.done (c, y') ?_ (hdiag i c y' hi hy').1 x y hcx h2 h3
        have := (hdiag i c y' hi hy').2
        rw [List.mem_reverse, mem_childCandidates]
        simp only [Bool.and_eq_true, Bool.not_eq_true', Bool.or_eq_true, beq_iff_eq] at this
        exact ⟨List.mem_of_getElem? hi, List.mem_of_getElem? hy', this.1, this.2⟩

/-- The result of the top-down phase: pairs at the same place, among them all with unchanged
subtrees. -/
theorem topDown_spec : ∃ M, topDown (DiffTree.ofArena hashNode A ra) (DiffTree.ofArena hashNode B rb)
      Config.diff Matching.empty = M ∧ M.Good (Corr A B ra rb) ∧ DoneA hashNode A B ra rb M ra := by
  obtain ⟨M, h1, h2⟩ := hs.corr_clears hA hB (matchDepth_enough hashNode hA .refl
    (DiffTree.ofArena hashNode B rb)) ra rb Matching.empty (.empty _) .root (by intro q hq; cases hq)
  exact ⟨M, h1.topDown hA hB, h2.good, h2.done (ra, rb) (by simp) .root⟩

end Settled
end Hotmeal
