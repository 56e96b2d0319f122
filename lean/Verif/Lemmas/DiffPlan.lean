import Verif.Lemmas.BuildTree
import Verif.Lemmas.Matching

set_option autoImplicit false
set_option linter.unusedSectionVars false

/-!
# The matching used by `diff` satisfies what the conversion needs
-/

namespace Hotmeal

open Arena

/-- What subtree hashes are meant to identify: kind, text and the shapes of the children. -/
inductive Shape
  | node (kind : HKind) (text : Option Str) (children : List Shape)

/-- The shape of the subtree of a node. -/
def Arena.shape (A : Arena TData) (n : Nat) : Shape :=
  A.fold (fun n cs => Shape.node (A.data n).kind (A.data n).text cs) n

theorem Arena.WF.shape_eq {A : Arena TData} (h : A.WF) (n : Nat) :
    A.shape n = .node (A.data n).kind (A.data n).text ((A.children n).map A.shape) := by
  unfold Arena.shape
  rw [h.fold_eq]

variable {H : Type} [DecidableEq H]

/-- Subtrees of the two trees with the same hash have the same shape. The trees are rooted at `ra`
and `rb`. -/
def NoCollisionFrom (hashNode : HKind → Option Str → List H → H) (A : Arena TData) (ra : Nat)
    (B : Arena TData) (rb : Nat) : Prop :=
  ∀ a b, A.Anc ra a → B.Anc rb b →
    (DiffTree.ofArena hashNode A ra).hash a = (DiffTree.ofArena hashNode B rb).hash b →
    A.shape a = B.shape b

/-- The same when the first tree is rooted at node 0. -/
abbrev NoCollision (hashNode : HKind → Option Str → List H → H) (A B : Arena TData) (nb : Nat) :
    Prop := NoCollisionFrom hashNode A 0 B nb

/-- Pairs the matcher may form: nodes of the two trees of the same kind. -/
def SameKindFrom (A : Arena TData) (ra : Nat) (B : Arena TData) (rb a b : Nat) : Prop :=
  A.Anc ra a ∧ B.Anc rb b ∧ (A.data a).kind = (B.data b).kind

abbrev SameKind (A B : Arena TData) (nb a b : Nat) : Prop := SameKindFrom A 0 B nb a b

theorem closed_true (TA TB : DiffTree H) :
    Closed TA TB (fun _ _ => True) (fun _ _ => True) (fun _ _ => True) := by
  constructor <;> intros <;> trivial

theorem zip_map_eq {α β γ : Type} {f : α → γ} {g : β → γ} {l : List α} {m : List β}
    (h : l.map f = m.map g) : ∀ p ∈ l.zip m, f p.1 = g p.2 := by
  induction l generalizing m with
  | nil => simp
  | cons x l ih =>
    cases m with
    | nil => simp
    | cons y m =>
      simp only [List.map_cons, List.cons.injEq] at h
      intro p hp
      rcases List.mem_cons.1 hp with rfl | hp
      · exact h.1
      · exact ih h.2 p hp

theorem closed_kind {hashNode : HKind → Option Str → List H → H} {A B : Arena TData} {ra nb : Nat}
    (hA : A.WF) (hB : B.WF) (hc : NoCollisionFrom hashNode A ra B nb) :
    Closed (DiffTree.ofArena hashNode A ra) (DiffTree.ofArena hashNode B nb) (SameKindFrom A ra B nb)
      (fun a b => A.Anc ra a ∧ B.Anc nb b ∧ A.shape a = B.shape b)
      (fun a b => A.Anc ra a ∧ B.Anc nb b) where
  sub := by
    rintro a b ⟨h1, h2, h3⟩
    refine ⟨h1, h2, ?_⟩
    rw [hA.shape_eq, hB.shape_eq] at h3
    injection h3
  subc := by
    rintro a b p ⟨h1, h2, h3⟩ hp
    rw [hA.shape_eq, hB.shape_eq] at h3
    injection h3 with _ _ h3
    have hp' : p ∈ (A.children a).zip (B.children b) := hp
    have hm := List.of_mem_zip (a := p.1) (b := p.2) hp'
    exact ⟨.step ((hA.mem_iff _ _).1 hm.1) h1, .step ((hB.mem_iff _ _).1 hm.2) h2,
      zip_map_eq h3 p hp'⟩
  cand := by
    rintro a b ⟨h1, h2⟩ h3 _
    exact ⟨h1, h2, hc a b h1 h2 h3⟩
  candk := by rintro a b ⟨h1, h2⟩ h3; exact ⟨h1, h2, h3⟩
  candc := by
    rintro a b a' b' ⟨h1, h2⟩ ha hb
    exact ⟨.step ((hA.mem_iff _ _).1 ha) h1, .step ((hB.mem_iff _ _).1 hb) h2⟩
  root := ⟨.refl, .refl⟩
  glob := by
    intro a b ha hb hk
    exact ⟨(hA.mem_descendants _ _).1 ha, (hB.mem_descendants _ _).1 hb, hk⟩
  loc := by
    rintro a b pa pb ha ⟨h1, h2, _⟩ hpa hb hk
    exact ⟨.step hpa h1, .step ((hB.mem_iff _ _).1 hb) h2, hk⟩

/-- The roots have the same kind and no other node has that kind. -/
structure RootsApart (A B : Arena TData) (nb : Nat) : Prop where
  same : (A.data 0).kind = (B.data nb).kind
  old : ∀ n, A.Anc 0 n → (A.data n).kind = (A.data 0).kind → n = 0
  new : ∀ n, B.Anc nb n → (B.data n).kind = (B.data nb).kind → n = nb

theorem diffMatching_good {hashNode : HKind → Option Str → List H → H} {A B : Arena TData} {nb : Nat}
    (hA : A.WF) (hB : B.WF) (hc : NoCollision hashNode A B nb) (hr : RootsApart A B nb) :
    (diffMatching (DiffTree.ofArena hashNode A 0) (DiffTree.ofArena hashNode B nb)).Good
        (SameKind A B nb) ∧
      (0, nb) ∈ (diffMatching (DiffTree.ofArena hashNode A 0) (DiffTree.ofArena hashNode B nb)).pairs := by
  have h := (closed_kind hA hB hc).computeMatching Config.diff
  unfold diffMatching
  generalize computeMatching (DiffTree.ofArena hashNode A 0) (DiffTree.ofArena hashNode B nb)
    Config.diff = M at h
  unfold forceRoots
  have hR : SameKind A B nb 0 nb := ⟨.refl, .refl, hr.same⟩
  split
  · next e =>
    have e2 : ¬ M.containsA 0 = true := e.2
    have ha : M.containsA 0 = false := by simpa using e2
    have hb : M.containsB nb = false := by
      rw [Matching.containsB_false]
      cases hg : M.getA nb with
      | none => rfl
      | some a =>
        have hab := (h.getA a nb).1 hg
        obtain ⟨h1, _, h3⟩ := h.rel _ _ hab
        have : a = 0 := hr.old a h1 (h3.trans hr.same.symm)
        subst this
        rw [Matching.containsA_false, (h.getB _ _).2 hab] at ha; cases ha
    exact ⟨h.add ha hb hR, List.mem_append.2 (.inr (List.mem_singleton.2 rfl))⟩
  · next e =>
    have e' : ¬ ((A.data 0).kind = (B.data nb).kind ∧ ¬ M.containsA 0 = true) := e
    have ha : M.containsA 0 = true := by
      cases hh : M.containsA 0 with
      | true => rfl
      | false => exact absurd ⟨hr.same, by simp [hh]⟩ e'
    refine ⟨h, ?_⟩
    cases hg : M.getB 0 with
    | none => rw [Matching.containsA_false.2 hg] at ha; cases ha
    | some b =>
      have hab := (h.getB 0 b).1 hg
      obtain ⟨_, h2, h3⟩ := h.rel _ _ hab
      have : b = nb := hr.new b h2 (h3.symm.trans hr.same)
      subst this; exact hab

theorem closed_anc {hashNode : HKind → Option Str → List H → H} {A B : Arena TData} (hA : A.WF) (hB : B.WF) (ra rb : Nat) :
    Closed (DiffTree.ofArena hashNode A ra) (DiffTree.ofArena hashNode B rb)
      (fun a b => A.Anc ra a ∧ B.Anc rb b) (fun a b => A.Anc ra a ∧ B.Anc rb b)
      (fun a b => A.Anc ra a ∧ B.Anc rb b) where
  sub := fun _ _ h => h
  subc := by
    rintro a b p ⟨h1, h2⟩ hp
    have hp' : p ∈ (A.children a).zip (B.children b) := hp
    have hm := List.of_mem_zip (a := p.1) (b := p.2) hp'
    exact ⟨.step ((hA.mem_iff _ _).1 hm.1) h1, .step ((hB.mem_iff _ _).1 hm.2) h2⟩
  cand := fun _ _ h _ _ => h
  candk := fun _ _ h _ => h
  candc := by
    rintro a b a' b' ⟨h1, h2⟩ ha hb
    exact ⟨.step ((hA.mem_iff _ _).1 ha) h1, .step ((hB.mem_iff _ _).1 hb) h2⟩
  root := ⟨.refl, .refl⟩
  glob := fun a b ha hb _ => ⟨(hA.mem_descendants _ _).1 ha, (hB.mem_descendants _ _).1 hb⟩
  loc := by
    rintro a b pa pb ha ⟨h1, h2⟩ hpa hb _
    exact ⟨.step hpa h1, .step ((hB.mem_iff _ _).1 hb) h2⟩

theorem diffMatching_pairs {hashNode : HKind → Option Str → List H → H} {A B : Arena TData} (hA : A.WF) (hB : B.WF) {ra rb : Nat} :
    (diffMatching (DiffTree.ofArena hashNode A ra) (DiffTree.ofArena hashNode B rb)).pairs.Nodup ∧
    ∀ a b, (a, b) ∈ (diffMatching (DiffTree.ofArena hashNode A ra)
      (DiffTree.ofArena hashNode B rb)).pairs → A.Anc ra a ∧ B.Anc rb b := by
  have hg := (closed_anc (hashNode := hashNode) hA hB ra rb).computeMatching Config.diff
  unfold diffMatching forceRoots
  split
  · next e =>
    refine ⟨?_, ?_⟩
    · show (_ ++ [_]).Nodup
      rw [List.nodup_append]
      refine ⟨hg.nodup, by simp, ?_⟩
      rintro p hp q hq rfl
      simp only [List.mem_singleton] at hq
      subst hq
      exact e.2 (by
        show (Matching.getB _ _).isSome = true
        rw [(hg.getB _ _).2 hp]; rfl)
    · intro a b h
      rcases List.mem_append.1 h with h | h
      · exact hg.rel a b h
      · simp only [List.mem_singleton, Prod.mk.injEq] at h
        rw [h.1, h.2]; exact ⟨.refl, .refl⟩
  · exact ⟨hg.nodup, hg.rel⟩

/-- The two trees agree on whether the matched nodes are opaque. -/
def AgreeOpaque (A B : Arena TData) (a b : Nat) : Prop :=
  (A.data a).props.isOpaque = (B.data b).props.isOpaque

/-- As long as matched nodes agree on being opaque, nothing inside opaque elements is matched. -/
theorem closedIf_clear {hashNode : HKind → Option Str → List H → H} {A B : Arena TData}
    {ra nb : Nat} (hA : A.WF) (hB : B.WF) :
    ClosedIf (DiffTree.ofArena hashNode A ra) (DiffTree.ofArena hashNode B nb) (AgreeOpaque A B)
      (fun a b => A.Anc ra a ∧ B.Anc nb b ∧ ¬ InsideOpaque A ra a ∧ ¬ InsideOpaque B nb b ∧
        AgreeOpaque A B a b)
      (fun a b => A.Anc ra a ∧ B.Anc nb b ∧ ¬ InsideOpaque A ra a ∧ ¬ InsideOpaque B nb b)
      (fun a b => A.Anc ra a ∧ B.Anc nb b ∧ ¬ InsideOpaque A ra a ∧ ¬ InsideOpaque B nb b) := by
  have child : ∀ {a b a' b'}, (A.Anc ra a ∧ B.Anc nb b ∧ ¬ InsideOpaque A ra a ∧
      ¬ InsideOpaque B nb b) → (A.data a).props.isOpaque = false →
      (B.data b).props.isOpaque = false → a' ∈ A.children a → b' ∈ B.children b →
      (A.Anc ra a' ∧ B.Anc nb b' ∧ ¬ InsideOpaque A ra a' ∧ ¬ InsideOpaque B nb b') := by
    rintro a b a' b' ⟨h1, h2, h3, h4⟩ ha hb ha' hb'
    have hpa := (hA.mem_iff _ _).1 ha'
    have hpb := (hB.mem_iff _ _).1 hb'
    refine ⟨.step hpa h1, .step hpb h2, ?_, ?_⟩
    · rw [InsideOpaque.parent_iff hA hpa h1, ha]; simpa using h3
    · rw [InsideOpaque.parent_iff hB hpb h2, hb]; simpa using h4
  exact
    { sub := fun a b ⟨h1, h2, h3, h4⟩ hq => ⟨h1, h2, h3, h4, hq⟩
      subc := fun a b p h ha hb hp =>
        child h ha hb (List.of_mem_zip (a := p.1) (b := p.2) hp).1
          (List.of_mem_zip (a := p.1) (b := p.2) hp).2
      cand := fun a b h _ _ => h
      candk := fun a b ⟨h1, h2, h3, h4⟩ hq _ => ⟨h1, h2, h3, h4, hq⟩
      candc := fun a b a' b' h ha hb ha' hb' => child h ha hb ha' hb'
      root := ⟨.refl, .refl, InsideOpaque.not_root hA, InsideOpaque.not_root hB⟩
      glob := by
        intro a b ha hb hoa hob hq _
        rw [mem_opaqueDescendants _ _ _ hA] at hoa
        rw [mem_opaqueDescendants _ _ _ hB] at hob
        exact ⟨(hA.mem_descendants _ _).1 ha, (hB.mem_descendants _ _).1 hb, hoa, hob, hq⟩
      loc := by
        rintro a b pa pb ha hoa ⟨h1, h2, h3, h4, h5⟩ hpa hb hq _
        rw [mem_opaqueDescendants _ _ _ hA] at hoa
        have hpa' : A.parent a = some pa := hpa
        have hpb := (hB.mem_iff _ _).1 hb
        have hca : (A.data pa).props.isOpaque = false := by
          cases e : (A.data pa).props.isOpaque with
          | false => rfl
          | true => exact absurd (InsideOpaque.of_opaque hA hpa' h1 e) hoa
        refine ⟨.step hpa' h1, .step hpb h2, hoa, ?_, hq⟩
        rw [InsideOpaque.parent_iff hB hpb h2, ← h5, hca]
        simpa using h4 }

/-- If all matched nodes agree on being opaque then nothing inside opaque elements is matched. -/
theorem diffMatching_clear {hashNode : HKind → Option Str → List H → H} {A B : Arena TData}
    {nb : Nat} (hA : A.WF) (hB : B.WF)
    (hq : ∀ p ∈ (diffMatching (DiffTree.ofArena hashNode A 0)
      (DiffTree.ofArena hashNode B nb)).pairs, AgreeOpaque A B p.1 p.2) :
    ∀ p ∈ (diffMatching (DiffTree.ofArena hashNode A 0) (DiffTree.ofArena hashNode B nb)).pairs,
      ¬ InsideOpaque A 0 p.1 ∧ ¬ InsideOpaque B nb p.2 := by
  have h := (closedIf_clear (hashNode := hashNode) (ra := 0) (nb := nb) hA hB).computeMatching
    Config.diff
  unfold diffMatching forceRoots at hq ⊢
  split
  · next e =>
    rw [if_pos e] at hq
    have h' := h fun p hp => hq p (List.mem_append.2 (.inl hp))
    intro p hp
    rcases List.mem_append.1 hp with hp | hp
    · obtain ⟨_, _, h3, h4, _⟩ := h'.rel p.1 p.2 hp
      exact ⟨h3, h4⟩
    · rw [List.mem_singleton.1 hp]
      exact ⟨InsideOpaque.not_root hA, InsideOpaque.not_root hB⟩
  · next e =>
    rw [if_neg e] at hq
    intro p hp
    obtain ⟨_, _, h3, h4, _⟩ := (h hq).rel p.1 p.2 hp
    exact ⟨h3, h4⟩

/-- The body subtree of a document has no second body element. -/
structure Document.Plain (D : Document) (b : Nat) : Prop where
  sound : D.Sound
  body : D.body = some b
  apart : ∀ n attrs, D.arena.Anc b n → (D.arena.data n).kind = .element "body".toList attrs → n = b

/-- One of the attributes is `data-hotmeal-opaque`. -/
def Attrs.marked (attrs : Attrs) : Bool := attrs.any fun kv => kv.1.loc == "data-hotmeal-opaque".toList

/-- There is no opaque element below `b`, and `b` is not opaque. -/
def Document.Clear (D : Document) (b : Nat) : Prop :=
  ∀ n tag attrs, D.arena.Anc b n → (D.arena.data n).kind = .element tag attrs →
    attrs.marked = false

theorem Document.body_spec {D : Document} {b : Nat} (h : D.body = some b) :
    b ∈ D.arena.children D.root ∧ ∃ attrs, (D.arena.data b).kind = .element "body".toList attrs := by
  unfold Document.body at h
  refine ⟨List.mem_of_find?_eq_some h, ?_⟩
  have := List.find?_some h
  unfold Document.hasTag at this
  split at this
  · next tag attrs hk =>
    have e : tag = "body".toList := by simpa using this
    exact ⟨attrs, by rw [← e]; exact hk⟩
  · cases this

theorem tdataOf_kind_element {nd : NodeData} {tag : Str} {ns : Ns}
    (h : (tdataOf nd).kind = .element tag ns) : ∃ attrs, nd = ⟨.element tag attrs, ns⟩ := by
  obtain ⟨k, ns'⟩ := nd
  cases k <;> simp [tdataOf] at h
  obtain ⟨rfl, rfl⟩ := h
  exact ⟨_, rfl⟩

theorem NodeKind.clean_of {k : NodeKind} (hd : k ≠ .document)
    (hu : ∀ tag attrs, k = .element tag attrs → attrs.Unique) : k.Clean := by
  cases k with
  | document => exact absurd rfl hd
  | element tag attrs => exact hu tag attrs rfl
  | text s => trivial
  | comment s => trivial

/-- The two bodies and their namespaces. -/
structure Comparable (D E : Document) (ob nb : Nat) : Prop where
  old : D.Plain ob
  new : E.Plain nb
  ns : (D.arena.data ob).ns = (E.arena.data nb).ns

/-- Nodes that `diff` matches agree on whether they are opaque: the document that is changed does not
turn an opaque element into an ordinary one or the other way round. -/
def OpaqueAgree (hashNode : HKind → Option Str → List H → H) (old new : Document)
    (ob nb : Nat) : Prop :=
  ∀ p ∈ (diffMatching (oldTree hashNode old ob) (newTree hashNode new nb)).pairs,
    AgreeOpaque (buildTree old ob) (diffable new) p.1 p.2

namespace Comparable

variable {old new : Document} {ob nb : Nat}

theorem not_document (D : Document) {b : Nat} (h : D.Plain b) {n : Nat} (hn : D.arena.Anc b n) :
    (D.arena.data n).kind ≠ .document := by
  rcases hn.cases' with e | ⟨p, hp, _⟩
  · subst e
    obtain ⟨_, attrs, hk⟩ := Document.body_spec h.body
    rw [hk]; intro e; cases e
  · exact h.sound.arena.nodoc n p hp

theorem rootsApart (h : Comparable old new ob nb) {g : Nat → Nat}
    (hb : Built old ob (buildTree old ob) g) :
    RootsApart (buildTree old ob) (diffable new) nb := by
  have so := h.old.sound.arena
  have sn := h.new.sound.arena
  have hBw : (diffable new).WF :=
    ⟨sn.wf.lt_of_parent, sn.wf.mem_iff, sn.wf.nodup, sn.wf.acyclic⟩
  obtain ⟨_, oattrs, hok⟩ := Document.body_spec h.old.body
  obtain ⟨hbm, nattrs, hnk⟩ := Document.body_spec h.new.body
  have hrk : ((buildTree old ob).data 0).kind = .element "body".toList (old.arena.data ob).ns := by
    rw [hb.rdata]; simp only [bodyKind, hok]
  have hnk' : ((diffable new).data nb).kind = .element "body".toList (new.arena.data nb).ns := by
    show (tdataOf (new.arena.data nb)).kind = _
    unfold tdataOf; rw [hnk]
  refine ⟨by rw [hrk, hnk', h.ns], ?_, ?_⟩
  · intro n hn hk
    rw [hrk] at hk
    apply Classical.byContradiction
    intro hne
    have hlt : n < (buildTree old ob).next := by
      rcases hn.cases' with e | ⟨p, hp, _⟩
      · exact absurd e.symm hne
      · exact (hb.wf.lt_of_parent _ _ hp).1
    rw [hb.data n hlt hne] at hk
    obtain ⟨attrs, he⟩ := tdataOf_kind_element hk
    have e1 := h.old.apart (g n) attrs (hb.ganc so.wf hn) (by rw [he])
    rcases hn.cases' with e | ⟨p, hp, hpa⟩
    · exact hne e.symm
    · have h2 := hb.gparent so.wf hp
      rw [e1] at h2
      exact so.wf.self_parent_ne h2 (so.wf.anc_antisymm (.step h2 .refl) (hb.ganc so.wf hpa))
  · intro n hn hk
    rw [hnk'] at hk
    obtain ⟨attrs, he⟩ := tdataOf_kind_element hk
    exact h.new.apart n attrs (anc_of_diffable hn) (by rw [he])

theorem plan (h : Comparable old new ob nb) (hashNode : HKind → Option Str → List H → H)
    (hc : NoCollision hashNode (buildTree old ob) (diffable new) nb)
    (ho : OpaqueAgree hashNode old new ob nb) {g : Nat → Nat}
    (hb : Built old ob (buildTree old ob) g) :
    Plan (buildTree old ob) (diffable new) nb
      (diffMatching (oldTree hashNode old ob) (newTree hashNode new nb)) := by
  have so := h.old.sound.arena
  have sn := h.new.sound.arena
  have hBw : (diffable new).WF :=
    ⟨sn.wf.lt_of_parent, sn.wf.mem_iff, sn.wf.nodup, sn.wf.acyclic⟩
  obtain ⟨_, oattrs, hok⟩ := Document.body_spec h.old.body
  obtain ⟨hbm, nattrs, hnk⟩ := Document.body_spec h.new.body
  have hrk : ((buildTree old ob).data 0).kind = .element "body".toList (old.arena.data ob).ns := by
    rw [hb.rdata]; simp only [bodyKind, hok]
  have hnk' : ((diffable new).data nb).kind = .element "body".toList (new.arena.data nb).ns := by
    show (tdataOf (new.arena.data nb)).kind = _
    unfold tdataOf; rw [hnk]
  have hr := h.rootsApart hb
  obtain ⟨hg, hroot⟩ := diffMatching_good hb.wf hBw hc hr
  refine
    { aw := hb.wf, bw := hBw, apos := hb.pos, a0 := hb.root, areach := hb.reach
      getB := hg.getB, getA := hg.getA, nd := hg.nodup, lt := ?_, root := hroot
      rootProps := by rw [hb.rdata]
      kind := fun a b hab => (hg.rel a b hab).2.2
      clear := fun a b hab => diffMatching_clear hb.wf hBw ho (a, b) hab
      opq := fun a b hab => ho (a, b) hab
      at_ := ?_, bt := ?_, elem := ?_, relem := ?_ }
  · intro a b hab
    obtain ⟨h1, h2, _⟩ := hg.rel a b hab
    refine ⟨?_, h2⟩
    rcases h1.cases' with e | ⟨p, hp, _⟩
    · rw [← e]; exact hb.pos
    · exact (hb.wf.lt_of_parent _ _ hp).1
  · intro a ha
    by_cases e : a = 0
    · subst e
      refine ⟨⟨⟨.element "body".toList [], (old.arena.data ob).ns⟩, by simp, ?_⟩, ?_⟩
      · rw [hb.rdata]; simp [tdataOf, bodyKind, hok]
      · rw [hb.rdata]
        simp only [kindOf, bodyKind, hok]
        exact List.nodup_nil
    · rw [hb.data a ha e]
      obtain ⟨q, hq⟩ := hb.par a ha e
      have hnd := so.nodoc _ q hq
      refine ⟨⟨_, hnd, rfl⟩, ?_⟩
      rw [kindOf_tdataOf hnd]
      exact NodeKind.clean_of hnd (fun tag attrs hk => so.uniq _ tag attrs hk)
  · intro b hbb
    have hnd := not_document new h.new (anc_of_diffable hbb)
    refine ⟨⟨_, hnd, rfl⟩, ?_⟩
    show (kindOf (tdataOf (new.arena.data b))).Clean
    rw [kindOf_tdataOf hnd]
    exact NodeKind.clean_of hnd (fun tag attrs hk => sn.uniq _ tag attrs hk)
  · intro b pb hp hpb
    have hnd := not_document new h.new (anc_of_diffable hpb)
    show (kindOf (tdataOf (new.arena.data pb))).IsElement
    rw [kindOf_tdataOf hnd]
    rcases sn.container_of_child hp with e | e
    · exact absurd e hnd
    · exact e
  · show (kindOf (tdataOf (new.arena.data nb))).IsElement
    have hnd := not_document new h.new .refl
    rw [kindOf_tdataOf hnd]
    exact ⟨_, _, hnk⟩

end Comparable
end Hotmeal
