import Verif.Props.Script
import Verif.Props.Termination

set_option autoImplicit false
set_option linter.unusedSectionVars false

/-!
# The matching of two trees of the same shape
-/

namespace Hotmeal

/-- The subtrees of `n` and `m` have the same shape, and nodes at the same place have related data. -/
inductive Arena.Alike {α β : Type} (R : α → β → Prop) (A : Arena α) (B : Arena β) : Nat → Nat → Prop
  | node {n m : Nat} (data : R (A.data n) (B.data m))
      (len : (A.children n).length = (B.children m).length)
      (kids : ∀ i c d : Nat, (A.children n)[i]? = some c → (B.children m)[i]? = some d →
        Arena.Alike R A B c d) : Arena.Alike R A B n m

/-- What the matcher looks at besides the attributes. -/
structure TData.Like (d e : TData) : Prop where
  kind : d.kind = e.kind
  text : d.text = e.text
  opq : d.props.isOpaque = e.props.isOpaque

/-- The same without the kind. -/
structure TData.Looks (d e : TData) : Prop where
  text : d.text = e.text
  opq : d.props.isOpaque = e.props.isOpaque

theorem TData.Like.looks {d e : TData} (h : d.Like e) : d.Looks e := ⟨h.text, h.opq⟩

theorem Arena.Alike.mono {α β : Type} {R R' : α → β → Prop} {A : Arena α} {B : Arena β} {n m : Nat}
    (h : Arena.Alike R A B n m) (hR : ∀ d e, R d e → R' d e) : Arena.Alike R' A B n m := by
  induction h with
  | node data len _ ih => exact .node (hR _ _ data) len ih

variable {H : Type} [DecidableEq H] {hashNode : HKind → Option Str → List H → H}
  {A B : Arena TData}

/-- Nodes at the same place of the subtrees of `ra` and `rb`, outside opaque content. -/
inductive Corr (A B : Arena TData) (ra rb : Nat) : Nat → Nat → Prop
  | root : Corr A B ra rb ra rb
  | child {p q i a b : Nat} (h : Corr A B ra rb p q) (ho : (A.data p).props.isOpaque = false)
      (ha : (A.children p)[i]? = some a) (hb : (B.children q)[i]? = some b) : Corr A B ra rb a b

namespace Corr

variable {ra rb a b : Nat}

theorem ancA (hA : A.WF) (h : Corr A B ra rb a b) : A.Anc ra a := by
  induction h with
  | root => exact .refl
  | child _ _ ha _ ih => exact .step ((hA.mem_iff _ _).1 (List.mem_of_getElem? ha)) ih

theorem ancB (hB : B.WF) (h : Corr A B ra rb a b) : B.Anc rb b := by
  induction h with
  | root => exact .refl
  | child _ _ _ hb ih => exact .step ((hB.mem_iff _ _).1 (List.mem_of_getElem? hb)) ih

theorem alike {R : TData → TData → Prop} (h : Corr A B ra rb a b) (hr : Arena.Alike R A B ra rb) :
    Arena.Alike R A B a b := by
  induction h with
  | root => exact hr
  | child _ _ ha hb ih => cases ih with | node _ _ kids => exact kids _ _ _ ha hb

/-- First step instead of last step. -/
theorem cons {i c d x y : Nat} (ho : (A.data a).props.isOpaque = false)
    (hc : (A.children a)[i]? = some c) (hd : (B.children b)[i]? = some d)
    (h : Corr A B c d x y) : Corr A B a b x y := by
  induction h with
  | root => exact .child .root ho hc hd
  | child _ ho' ha hb ih => exact .child ih ho' ha hb

theorem iff {x y : Nat} : Corr A B a b x y ↔ (x = a ∧ y = b) ∨
    ((A.data a).props.isOpaque = false ∧ ∃ p ∈ (A.children a).zip (B.children b),
      Corr A B p.1 p.2 x y) := by
  constructor
  · intro h
    induction h with
    | root => exact .inl ⟨rfl, rfl⟩
    | @child _ _ i _ _ _ ho ha hb ih =>
      rcases ih with ⟨rfl, rfl⟩ | ⟨ho', p, hp, hc⟩
      · refine .inr ⟨ho, (_, _), List.mem_of_getElem? (i := i) ?_, .root⟩
        rw [List.getElem?_zip_eq_some]; exact ⟨ha, hb⟩
      · exact .inr ⟨ho', p, hp, .child hc ho ha hb⟩
  · rintro (⟨rfl, rfl⟩ | ⟨ho, p, hp, h⟩)
    · exact .root
    · obtain ⟨i, hi⟩ := List.mem_iff_getElem?.1 hp
      rw [List.getElem?_zip_eq_some] at hi
      exact h.cons ho hi.1 hi.2

end Corr

theorem alike_hash (hA : A.WF) (hB : B.WF) (ra rb : Nat) {a b : Nat}
    (h : Arena.Alike TData.Like A B a b) :
    (DiffTree.ofArena hashNode A ra).hash a = (DiffTree.ofArena hashNode B rb).hash b := by
  show A.fold _ a = B.fold _ b
  induction h with
  | @node n m data len kids ih =>
    rw [hA.fold_eq, hB.fold_eq, data.kind, data.text]
    congr 1
    apply List.ext_getElem?
    intro i
    rw [List.getElem?_map, List.getElem?_map]
    cases h1 : (A.children n)[i]? with
    | none =>
      have : (B.children m)[i]? = none := by
        rw [List.getElem?_eq_none_iff] at h1 ⊢; omega
      rw [this]; rfl
    | some c =>
      cases h2 : (B.children m)[i]? with
      | none =>
        rw [List.getElem?_eq_none_iff] at h2
        have := (List.getElem?_eq_some_iff.1 h1).1
        omega
      | some d => exact congrArg some (ih i c d h1 h2)

theorem not_anc_parent {α : Type} {A : Arena α} (hA : A.WF) {c p : Nat} (h : A.parent c = some p) :
    ¬ A.Anc c p := by
  intro h'
  obtain ⟨r, hr⟩ := hA.acyclic
  have := h'.rank_le hr
  have := hr _ _ h
  omega

theorem matchSubtrees_alike {R : TData → TData → Prop}
    (hR : ∀ d e, R d e → d.props.isOpaque = e.props.isOpaque) (hA : A.WF) (hB : B.WF) (ra rb : Nat) (a : Nat) :
    ∀ (b k : Nat) (M : Matching), Arena.Alike R A B a b → (A.descendants a).length ≤ k →
      M.Good (fun _ _ => True) → (∀ p ∈ M.pairs, ¬ A.Anc a p.1 ∧ ¬ B.Anc b p.2) →
      ∀ p, p ∈ (matchSubtrees (DiffTree.ofArena hashNode A ra) (DiffTree.ofArena hashNode B rb) k a b
        M).pairs ↔ p ∈ M.pairs ∨ Corr A B a b p.1 p.2 := by
  refine hA.induct_down (P := fun a => ∀ (b k : Nat) (M : Matching), Arena.Alike R A B a b →
      (A.descendants a).length ≤ k → M.Good (fun _ _ => True) →
      (∀ p ∈ M.pairs, ¬ A.Anc a p.1 ∧ ¬ B.Anc b p.2) →
      ∀ p, p ∈ (matchSubtrees (DiffTree.ofArena hashNode A ra) (DiffTree.ofArena hashNode B rb) k a b
        M).pairs ↔ p ∈ M.pairs ∨ Corr A B a b p.1 p.2) ?_ a
  intro a ih b k M hl hk hM hfresh p
  have hs := size_eq hA a
  obtain ⟨k, rfl⟩ : ∃ j, k = j + 1 := ⟨k - 1, by omega⟩
  have hcA : M.containsA a = false := by
    rw [Matching.containsA_false]
    cases e : M.getB a with
    | none => rfl
    | some y => exact absurd .refl (hfresh _ ((hM.getB _ _).1 e)).1
  have hcB : M.containsB b = false := by
    rw [Matching.containsB_false]
    cases e : M.getA b with
    | none => rfl
    | some y => exact absurd .refl (hfresh _ ((hM.getA _ _).1 e)).2
  simp only [matchSubtrees, hcA, hcB, Bool.or_false]
  rw [if_neg (by simp)]
  have hM1 := hM.add hcA hcB trivial
  cases hl with
  | node data len kids =>
  have hoB : (DiffTree.ofArena hashNode B rb).isOpaque b = (DiffTree.ofArena hashNode A ra).isOpaque a :=
    (hR _ _ data).symm
  rw [hoB, Bool.or_self]
  have hp1 : ∀ q, q ∈ (M.add a b).pairs ↔ q ∈ M.pairs ∨ q = (a, b) := by
    intro q
    show q ∈ M.pairs ++ [(a, b)] ↔ _
    rw [List.mem_append, List.mem_singleton]
  by_cases ho : (A.data a).props.isOpaque = true
  · rw [if_pos (show (DiffTree.ofArena hashNode A ra).isOpaque a = true from ho), hp1, Corr.iff]
    simp only [ho, Bool.true_eq_false, false_and, or_false]
    rw [Prod.ext_iff]
  · rw [if_neg (show ¬ (DiffTree.ofArena hashNode A ra).isOpaque a = true from ho)]
    have ho' : (A.data a).props.isOpaque = false := by simpa using ho
    show p ∈ Matching.pairs (((A.children a).zip (B.children b)).foldl _ _) ↔ _
    have hzip : ∀ q ∈ (A.children a).zip (B.children b), A.parent q.1 = some a ∧
        B.parent q.2 = some b ∧ Arena.Alike R A B q.1 q.2 ∧
        (A.descendants q.1).length ≤ k := by
      intro q hq
      obtain ⟨i, hi⟩ := List.mem_iff_getElem?.1 hq
      rw [List.getElem?_zip_eq_some] at hi
      have h1 := List.mem_of_getElem? hi.1
      refine ⟨(hA.mem_iff _ _).1 h1, (hB.mem_iff _ _).1 (List.mem_of_getElem? hi.2),
        kids i _ _ hi.1 hi.2, ?_⟩
      have := le_sum (List.mem_map_of_mem (f := fun c => (A.descendants c).length) h1)
      omega
    have hnA : (((A.children a).zip (B.children b)).map Prod.fst).Nodup := by
      rw [List.map_fst_zip (by omega)]; exact hA.nodup a
    have hnB : (((A.children a).zip (B.children b)).map Prod.snd).Nodup := by
      rw [List.map_snd_zip (by omega)]; exact hB.nodup b
    have fold : ∀ (l : List (Nat × Nat)) (M : Matching),
        (∀ q ∈ l, q ∈ (A.children a).zip (B.children b)) → (l.map Prod.fst).Nodup →
        (l.map Prod.snd).Nodup → M.Good (fun _ _ => True) →
        (∀ p ∈ M.pairs, ∀ q ∈ l, ¬ A.Anc q.1 p.1 ∧ ¬ B.Anc q.2 p.2) →
        ∀ p, p ∈ (l.foldl (fun M p => matchSubtrees (DiffTree.ofArena hashNode A ra)
          (DiffTree.ofArena hashNode B rb) k p.1 p.2 M) M).pairs ↔
          p ∈ M.pairs ∨ ∃ q ∈ l, Corr A B q.1 q.2 p.1 p.2 := by
      intro l
      induction l with
      | nil => intro M _ _ _ _ _ p; simp
      | cons q l ihl =>
        intro M hsub hn1 hn2 hM hfr p
        rw [List.map_cons, List.nodup_cons] at hn1 hn2
        obtain ⟨e1, e2, e3, e4⟩ := hzip q (hsub q (by simp))
        have hstep := ih q.1 ((hA.mem_iff _ _).2 e1) q.2 k M e3 e4 hM
          (fun p hp => hfr p hp q (by simp))
        rw [List.foldl_cons, ihl _ (fun q hq => hsub q (by simp [hq])) hn1.2 hn2.2
          ((closed_true _ _).matchSubtrees k q.1 q.2 M hM trivial) ?_ p]
        · rw [hstep]
          constructor
          · rintro ((h | h) | ⟨q', hq', h⟩)
            · exact .inl h
            · exact .inr ⟨q, by simp, h⟩
            · exact .inr ⟨q', by simp [hq'], h⟩
          · rintro (h | ⟨q', hq', h⟩)
            · exact .inl (.inl h)
            · rcases List.mem_cons.1 hq' with rfl | hq'
              · exact .inl (.inr h)
              · exact .inr ⟨q', hq', h⟩
        · intro p hp q' hq'
          rcases (hstep p).1 hp with h | h
          · exact hfr p h q' (by simp [hq'])
          · obtain ⟨f1, f2, _, _⟩ := hzip q' (hsub q' (by simp [hq']))
            constructor
            · intro h'
              have := hA.siblings_disjoint f1 e1 h' (h.ancA hA)
              exact hn1.1 (this ▸ List.mem_map_of_mem hq')
            · intro h'
              have := hB.siblings_disjoint f2 e2 h' (h.ancB hB)
              exact hn2.1 (this ▸ List.mem_map_of_mem hq')
    rw [fold _ _ (fun _ h => h) hnA hnB hM1 ?_ p, hp1, Corr.iff, Prod.ext_iff]
    · simp only [ho', true_and]
      exact or_assoc
    · intro p hp q hq
      obtain ⟨f1, f2, _, _⟩ := hzip q hq
      rcases (hp1 p).1 hp with h | rfl
      · exact ⟨fun h' => (hfresh p h).1 (Arena.Anc.trans (.step f1 .refl) h'), fun h' => (hfresh p h).2 (Arena.Anc.trans (.step f2 .refl) h')⟩
      · exact ⟨fun h' => not_anc_parent hA f1 h', fun h' => not_anc_parent hB f2 h'⟩

variable {ra rb : Nat}

/-- Every node is at the same place as some node of the other tree or inside opaque content. -/
theorem corr_totalA (hA : A.WF) (hr : Arena.Alike TData.Looks A B ra rb) {a : Nat} (h : A.Anc ra a) :
    (∃ b, Corr A B ra rb a b) ∨ InsideOpaque A ra a := by
  induction h with
  | refl => exact .inl ⟨rb, .root⟩
  | @step a p hp h ih =>
    have hne : ∀ o, A.Anc o p → a ≠ o := by
      rintro o ho rfl; exact not_anc_parent hA hp ho
    rcases ih with ⟨q, hq⟩ | ⟨o, h1, h2, h3, h4⟩
    · by_cases ho : (A.data p).props.isOpaque = true
      · exact .inr ⟨p, h, ho, .step hp .refl, hne p .refl⟩
      · obtain ⟨i, hi⟩ := List.mem_iff_getElem?.1 ((hA.mem_iff _ _).2 hp)
        cases hq.alike hr with
        | node _ len _ =>
        have hlt := (List.getElem?_eq_some_iff.1 hi).1
        obtain ⟨d, hd⟩ : ∃ d, (B.children q)[i]? = some d :=
          ⟨_, List.getElem?_eq_getElem (by omega)⟩
        exact .inl ⟨d, .child hq (by simpa using ho) hi hd⟩
    · exact .inr ⟨o, h1, h2, .step hp h3, hne o h3⟩

theorem corr_totalB (hB : B.WF) (hr : Arena.Alike TData.Looks A B ra rb) {b : Nat} (h : B.Anc rb b) :
    (∃ a, Corr A B ra rb a b) ∨ InsideOpaque B rb b := by
  induction h with
  | refl => exact .inl ⟨ra, .root⟩
  | @step b q hp h ih =>
    have hne : ∀ o, B.Anc o q → b ≠ o := by
      rintro o ho rfl; exact not_anc_parent hB hp ho
    rcases ih with ⟨p, hq⟩ | ⟨o, h1, h2, h3, h4⟩
    · have hal := hq.alike hr
      by_cases ho : (B.data q).props.isOpaque = true
      · exact .inr ⟨q, h, ho, .step hp .refl, hne q .refl⟩
      · obtain ⟨i, hi⟩ := List.mem_iff_getElem?.1 ((hB.mem_iff _ _).2 hp)
        cases hal with
        | node data len _ =>
        have hlt := (List.getElem?_eq_some_iff.1 hi).1
        obtain ⟨d, hd⟩ : ∃ d, (A.children p)[i]? = some d :=
          ⟨_, List.getElem?_eq_getElem (by omega)⟩
        exact .inl ⟨d, .child hq (by rw [data.opq]; simpa using ho) hd hi⟩
    · exact .inr ⟨o, h1, h2, .step hp h3, hne o h3⟩

theorem topDownLoop_nil (TA TB : DiffTree H) (cfg : Config) (d k : Nat) (M : Matching) :
    topDownLoop TA TB cfg d k [] M = M := by cases k <;> rfl

theorem foldl_id {α β : Type} (f : β → α → β) (b : β) (l : List α) (h : ∀ a ∈ l, f b a = b) :
    l.foldl f b = b := by
  induction l with
  | nil => rfl
  | cons a l ih => rw [List.foldl_cons, h a (by simp)]; exact ih (fun a ha => h a (by simp [ha]))

/-- The matching of two trees of the same shape and hash: the nodes at the same place. -/
theorem diffMatching_looks (hA : A.WF) (hB : B.WF) (hr : Arena.Alike TData.Looks A B ra rb)
    (hh : (DiffTree.ofArena hashNode A ra).hash ra = (DiffTree.ofArena hashNode B rb).hash rb)
    (hk : (DiffTree.ofArena hashNode A ra).kind ra = (DiffTree.ofArena hashNode B rb).kind rb) :
    (diffMatching (DiffTree.ofArena hashNode A ra) (DiffTree.ofArena hashNode B rb)).Good
      (fun _ _ => True) ∧
    ∀ a b, (a, b) ∈ (diffMatching (DiffTree.ofArena hashNode A ra)
      (DiffTree.ofArena hashNode B rb)).pairs ↔ Corr A B ra rb a b := by
  have htd : topDown (DiffTree.ofArena hashNode A ra) (DiffTree.ofArena hashNode B rb) Config.diff
      Matching.empty = matchSubtrees (DiffTree.ofArena hashNode A ra) (DiffTree.ofArena hashNode B rb)
        (matchDepth (DiffTree.ofArena hashNode A ra) (DiffTree.ofArena hashNode B rb)) ra rb
        Matching.empty := by
    unfold topDown topDownFuel
    show topDownLoop _ _ _ _ (_ + 1) [(ra, rb)] _ = _
    rw [topDownLoop]
    rw [if_neg (by simp [Matching.containsA, Matching.containsB, Matching.empty]),
      if_neg (show ¬ _ < Config.diff.minHeight from Nat.not_lt_zero _), if_pos (by rw [hh, hk]; simp), topDownLoop_nil]
  have hgood := (closed_true (DiffTree.ofArena hashNode A ra)
    (DiffTree.ofArena hashNode B rb)).matchSubtrees (matchDepth (DiffTree.ofArena hashNode A ra)
      (DiffTree.ofArena hashNode B rb)) ra rb _ (Matching.Good.empty _) trivial
  have hpairs := matchSubtrees_alike (hashNode := hashNode) (fun _ _ h => TData.Looks.opq h) hA hB ra rb ra rb
    (matchDepth (DiffTree.ofArena hashNode A ra) (DiffTree.ofArena hashNode B rb)) Matching.empty hr
    (matchDepth_enough hashNode hA .refl _) (Matching.Good.empty _) (fun p hp => by cases hp)
  generalize hM : matchSubtrees (DiffTree.ofArena hashNode A ra) (DiffTree.ofArena hashNode B rb)
        (matchDepth (DiffTree.ofArena hashNode A ra) (DiffTree.ofArena hashNode B rb)) ra rb
        Matching.empty = M at htd hgood hpairs
  have hp : ∀ a b, (a, b) ∈ M.pairs ↔ Corr A B ra rb a b := by
    intro a b
    rw [hpairs]
    constructor
    · rintro (h | h)
      · cases h
      · exact h
    · exact .inr
  have hin : ∀ a ∈ A.descendants ra, (M.containsA a || decide (a ∈ opaqueDescendants
      (DiffTree.ofArena hashNode A ra))) = true := by
    intro a ha
    rcases corr_totalA hA hr ((hA.mem_descendants _ _).1 ha) with ⟨b, hb⟩ | h
    · have := (hgood.getB _ _).2 ((hp _ _).2 hb)
      simp only [Matching.getB] at this
      simp [Matching.containsA, this]
    · rw [← mem_opaqueDescendants hashNode A ra hA] at h
      simp [h]
  have hcm : computeMatching (DiffTree.ofArena hashNode A ra) (DiffTree.ofArena hashNode B rb)
      Config.diff = M := by
    unfold computeMatching bottomUp
    rw [htd]
    simp only
    have h1 : (DiffTree.ofArena hashNode A ra).iter.foldl (pass1Step (DiffTree.ofArena hashNode A ra)
        (DiffTree.ofArena hashNode B rb) Config.diff (opaqueDescendants (DiffTree.ofArena hashNode A ra))
        (bByKind (DiffTree.ofArena hashNode B rb) M
          (opaqueDescendants (DiffTree.ofArena hashNode B rb)))) M = M := by
      apply foldl_id
      intro a ha
      unfold pass1Step
      rw [if_pos (hin a ha)]
    rw [h1]
    apply foldl_id
    intro a ha
    unfold pass2Step
    rw [if_pos (hin a ha)]
  have hdm : diffMatching (DiffTree.ofArena hashNode A ra) (DiffTree.ofArena hashNode B rb) = M := by
    unfold diffMatching forceRoots
    rw [hcm, if_neg]
    rintro ⟨_, h⟩
    have := (hgood.getB ra rb).2 ((hp _ _).2 .root)
    simp only [Matching.getB] at this
    apply h
    show M.containsA ra = true
    simp [Matching.containsA, this]
  rw [hdm]
  exact ⟨hgood, hp⟩

/-- The matching of two trees of the same shape: the nodes at the same place. -/
theorem diffMatching_alike (hA : A.WF) (hB : B.WF) (hr : Arena.Alike TData.Like A B ra rb) :
    (diffMatching (DiffTree.ofArena hashNode A ra) (DiffTree.ofArena hashNode B rb)).Good
      (fun _ _ => True) ∧
    ∀ a b, (a, b) ∈ (diffMatching (DiffTree.ofArena hashNode A ra)
      (DiffTree.ofArena hashNode B rb)).pairs ↔ Corr A B ra rb a b :=
  diffMatching_looks hA hB (hr.mono fun _ _ h => h.looks) (alike_hash hA hB ra rb hr)
    (by cases hr with | node data _ _ => exact data.kind)

/-- The script for two trees of the same shape and hash changes attributes only. -/
theorem script_looks (hA : A.WF) (hB : B.WF) (hra : ra < A.next) (hpa : A.parent ra = none)
    (hr : Arena.Alike TData.Looks A B ra rb)
    (hh : (DiffTree.ofArena hashNode A ra).hash ra = (DiffTree.ofArena hashNode B rb).hash rb)
    (hk : (DiffTree.ofArena hashNode A ra).kind ra = (DiffTree.ofArena hashNode B rb).kind rb) (op : EditOp)
    (hop : op ∈ scriptOf hashNode A B ra rb (diffMatching (DiffTree.ofArena hashNode A ra)
      (DiffTree.ofArena hashNode B rb))) : ∃ a b ch, op = .updateProps a b ch := by
  obtain ⟨hgood, hp⟩ := diffMatching_looks (hashNode := hashNode) hA hB hr hh hk
  clear hh hk
  generalize diffMatching (DiffTree.ofArena hashNode A ra) (DiffTree.ofArena hashNode B rb) = M at *
  cases op with
  | updateProps a b ch => exact ⟨a, b, ch, rfl⟩
  | setText a b t =>
    exfalso
    rw [C13_text_updates_exactly_when_needed hA hB] at hop
    obtain ⟨h1, _, _, h2, h3⟩ := hop
    cases ((hp _ _).1 h1).alike hr with
    | node data _ _ => exact h3 (data.text.trans h2)
  | insert b pb pos k =>
    exfalso
    rw [C10_inserts_are_the_unmatched hB] at hop
    obtain ⟨h1, h2, h3, _⟩ := hop
    rcases corr_totalB hB hr h1 with ⟨a, ha⟩ | h
    · rw [(hgood.getA _ _).2 ((hp _ _).2 ha)] at h2; cases h2
    · exact h3 h
  | delete a =>
    exfalso
    rw [C11_deletes_are_the_unmatched hA hra] at hop
    obtain ⟨h1, h2, h3⟩ := hop
    rcases corr_totalA hA hr h1 with ⟨b, hb⟩ | h
    · rw [(hgood.getB _ _).2 ((hp _ _).2 hb)] at h2; cases h2
    · exact h3 h
  | move a b pb pos =>
    exfalso
    rw [C12_moves_exactly_when_needed hA hB] at hop
    obtain ⟨h1, _, _, h4, h5, pa, h6, h7⟩ := hop
    cases (hp _ _).1 h1 with
    | root => rw [hpa] at h6; cases h6
    | @child p q i _ _ hc ho ha hb =>
      have e1 := (hA.mem_iff _ _).1 (List.mem_of_getElem? ha)
      have e2 := (hB.mem_iff _ _).1 (List.mem_of_getElem? hb)
      rw [e1] at h6; cases h6
      rw [e2] at h4; cases h4
      unfold AtIndex at h5 h7
      simp only [e2] at h5
      simp only [e1] at h7
      rcases h7 with h7 | h7
      · exact h7 ((hgood.getB _ _).2 ((hp _ _).2 hc))
      · have := List.nodup_getElem?_inj (hB.nodup _) hb h5
        subst this
        exact h7 ha

/-- The script for two trees of the same shape changes attributes only. -/
theorem script_alike (hA : A.WF) (hB : B.WF) (hra : ra < A.next) (hpa : A.parent ra = none)
    (hr : Arena.Alike TData.Like A B ra rb) (op : EditOp)
    (hop : op ∈ scriptOf hashNode A B ra rb (diffMatching (DiffTree.ofArena hashNode A ra)
      (DiffTree.ofArena hashNode B rb))) : ∃ a b ch, op = .updateProps a b ch :=
  script_looks hA hB hra hpa (hr.mono fun _ _ h => h.looks) (alike_hash hA hB ra rb hr)
    (by cases hr with | node data _ _ => exact data.kind) op hop

end Hotmeal
