import Verif.Lemmas.StayUp
import Verif.Lemmas.WasmOps
import Verif.Props.Address
import Verif.Props.Same

set_option autoImplicit false
set_option linter.unusedSectionVars false

/-!
# C51: editing texts
-/

namespace Hotmeal

/-- Nodes reached by the same child indices from `ra` and from `rb`. -/
inductive Place {α β : Type} (A : Arena α) (B : Arena β) (ra rb : Nat) : Nat → Nat → Prop
  | root : Place A B ra rb ra rb
  | child {p q i a b : Nat} (h : Place A B ra rb p q) (ha : (A.children p)[i]? = some a)
      (hb : (B.children q)[i]? = some b) : Place A B ra rb a b

/-- Nodes at the same depth below `ra` and below `rb`. -/
inductive SameDepth {α β : Type} (A : Arena α) (B : Arena β) (ra rb : Nat) : Nat → Nat → Prop
  | root : SameDepth A B ra rb ra rb
  | child {p q a b : Nat} (h : SameDepth A B ra rb p q) (ha : A.parent a = some p)
      (hb : B.parent b = some q) : SameDepth A B ra rb a b

/-- Two texts, two comments, or two ordinary elements of the same name that share at least half of their
attribute names. -/
def NodeData.Counterpart (d e : NodeData) : Prop :=
  match d.kind, e.kind with
  | .element tag attrs, .element tag' attrs' => tag = tag' ∧ d.ns = e.ns ∧ attrs.marked = false ∧
    attrs'.marked = false ∧
    attrs.keys.length + attrs'.keys.length ≤ 4 * (attrs.keys.filter fun k => k ∈ attrs'.keys).length
  | .text _, .text _ => True
  | .comment _, .comment _ => True
  | _, _ => False

/-- The same text, the same comment, or elements of the same name. -/
def NodeData.SameContent (d e : NodeData) : Prop :=
  match d.kind, e.kind with
  | .element tag _, .element tag' _ => tag = tag' ∧ d.ns = e.ns
  | .text s, .text s' => s = s'
  | .comment s, .comment s' => s = s'
  | _, _ => False

/-- The text of a text or comment node. -/
def NodeData.content (d : NodeData) : Option Str :=
  match d.kind with
  | .text s => some s
  | .comment s => some s
  | _ => none

/-- The two bodies have the same structure, and the change is a small one: at least half of the nodes keep
their whole subtree (up to attributes), and what has changed does not look like something else at the same
depth. -/
structure TextEdit (old new : Document) (ob nb : Nat) : Prop where
  /-- The body of the new document has no attributes. -/
  bare : (new.arena.data nb).kind = .element "body".toList []
  alike : Arena.Alike NodeData.Counterpart old.arena new.arena ob nb
  apart : ∀ x y, SameDepth old.arena new.arena ob nb x y →
    Arena.Alike NodeData.SameContent old.arena new.arena x y →
    (∀ y', Place old.arena new.arena ob nb x y' →
      Arena.Alike NodeData.SameContent old.arena new.arena x y') ∧
    (∀ x', Place old.arena new.arena ob nb x' y →
      Arena.Alike NodeData.SameContent old.arena new.arena x' y)
  most : ∃ l : List Nat, l.Nodup ∧ (∀ x ∈ l, ∃ y, Place old.arena new.arena ob nb x y ∧
      Arena.Alike NodeData.SameContent old.arena new.arena x y) ∧
    (old.arena.descendants ob).length ≤ 2 * l.length

variable {H : Type} [DecidableEq H] {hashNode : HKind → Option Str → List H → H}
  {old new : Document} {ob nb : Nat}

theorem Attrs.similarity_half {a b : Attrs} (ha : a.Unique) (hb : b.Unique)
    (h : a.keys.length + b.keys.length ≤ 4 * (a.keys.filter fun k => k ∈ b.keys).length) :
    (a.similarity b).ge ⟨1, 2⟩ = true := by
  have ea : a.keySet = a.keys := List.eraseDups_of_nodup ha
  have eb : b.keySet = b.keys := List.eraseDups_of_nodup hb
  unfold Attrs.similarity
  split
  · rfl
  · simp only [ea, eb]
    split
    · rfl
    · simp only [Score.ge, decide_eq_true_eq]
      omega

theorem NodeData.SameContent.tdata {d e : NodeData} (h : d.SameContent e) :
    (tdataOf d).kind = (tdataOf e).kind ∧ (tdataOf d).text = (tdataOf e).text := by
  obtain ⟨k, ns⟩ := d
  obtain ⟨k', ns'⟩ := e
  cases k <;> cases k' <;> simp only [NodeData.SameContent] at h <;> try exact h.elim
  · obtain ⟨rfl, rfl⟩ := h; exact ⟨rfl, rfl⟩
  · subst h; exact ⟨rfl, rfl⟩
  · subst h; exact ⟨rfl, rfl⟩

theorem NodeData.sameContent_of {d e : NodeData} (hd : d.kind ≠ .document) (he : e.kind ≠ .document)
    (h1 : (tdataOf d).kind = (tdataOf e).kind) (h2 : (tdataOf d).text = (tdataOf e).text) :
    d.SameContent e := by
  obtain ⟨k, ns⟩ := d
  obtain ⟨k', ns'⟩ := e
  cases k <;> cases k' <;> simp_all [NodeData.SameContent, tdataOf]

theorem NodeData.content_eq (d : NodeData) : (tdataOf d).text = d.content := by
  unfold tdataOf NodeData.content
  split <;> simp_all

/-! ### From documents to the trees that are compared -/

namespace Built

variable {T : Arena TData} {g : Nat → Nat}

theorem lt_of_anc (hb : Built old ob T g) {a : Nat} (h : T.Anc 0 a) : a < T.next := by
  rcases h.cases' with rfl | ⟨p, hp, _⟩
  · exact hb.pos
  · exact (hb.wf.lt_of_parent _ _ hp).1

/-- Kind and text of a node of the tree. -/
theorem look (hb : Built old ob T g) (hbody : old.body = some ob) {a : Nat} (ha : a < T.next) :
    (T.data a).kind = (tdataOf (old.arena.data (g a))).kind ∧
    (T.data a).text = (tdataOf (old.arena.data (g a))).text := by
  by_cases h0 : a = 0
  · subst h0
    obtain ⟨_, attrs, hk⟩ := Document.body_spec hbody
    rw [hb.rdata, hb.g0]
    simp only [bodyKind, tdataOf, hk, and_self]
  · rw [hb.data a ha h0]; exact ⟨rfl, rfl⟩

theorem ne_zero_of_child (hb : Built old ob T g) {i c p : Nat} (h : (T.children p)[i]? = some c) :
    c < T.next ∧ c ≠ 0 := by
  have hp := (hb.wf.mem_iff _ _).1 (List.mem_of_getElem? h)
  refine ⟨(hb.wf.lt_of_parent _ _ hp).1, ?_⟩
  rintro rfl
  rw [hb.root] at hp; cases hp

theorem child_eq (hb : Built old ob T g) {p i c : Nat} (hp : p < T.next) (h : (T.children p)[i]? = some c) :
    (old.arena.children (g p))[i]? = some (g c) := by
  rw [hb.kids p hp, List.getElem?_map, h]; rfl

theorem place_of_corr (hb : Built old ob T g) {a b : Nat} (h : Corr T (diffable new) 0 nb a b) :
    a < T.next ∧ Place old.arena new.arena ob nb (g a) b := by
  induction h with
  | root => exact ⟨hb.pos, by rw [hb.g0]; exact .root⟩
  | child _ _ ha hb' ih =>
    exact ⟨(hb.ne_zero_of_child ha).1, .child ih.2 (hb.child_eq ih.1 ha) hb'⟩

theorem corr_of_place (hb : Built old ob T g) (hal : Arena.Alike TData.Similar T (diffable new) 0 nb)
    {x y : Nat} (h : Place old.arena new.arena ob nb x y) :
    ∃ a, a < T.next ∧ g a = x ∧ Corr T (diffable new) 0 nb a y := by
  induction h with
  | root => exact ⟨0, hb.pos, hb.g0, .root⟩
  | child _ ha hb' ih =>
    obtain ⟨p, hp, rfl, hc⟩ := ih
    rw [hb.kids p hp, List.getElem?_map, Option.map_eq_some_iff] at ha
    obtain ⟨a, ha, rfl⟩ := ha
    refine ⟨a, (hb.ne_zero_of_child ha).1, rfl, ?_⟩
    exact .child hc (hc.alike hal).similar.clear ha hb'

theorem depth_of_level (hb : Built old ob T g) (hw : old.arena.WF) {a b : Nat}
    (h : Level T (diffable new) 0 nb a b) :
    a < T.next ∧ SameDepth old.arena new.arena ob nb (g a) b := by
  induction h with
  | root => exact ⟨hb.pos, by rw [hb.g0]; exact .root⟩
  | child _ ha hb' ih =>
    obtain ⟨i, hi⟩ := List.mem_iff_getElem?.1 ((hb.wf.mem_iff _ _).2 ha)
    have := hb.child_eq ih.1 hi
    exact ⟨(hb.wf.lt_of_parent _ _ ha).1, .child ih.2
      ((hw.mem_iff _ _).1 (List.mem_of_getElem? this)) hb'⟩

/-- Same content, same shape. -/
theorem shape_of_same (hb : Built old ob T g) (hbody : old.body = some ob) :
    ∀ a b, a < T.next → Arena.Alike NodeData.SameContent old.arena new.arena (g a) b →
      Arena.Alike (fun d e => d.kind = e.kind ∧ d.text = e.text) T (diffable new) a b := by
  intro a
  refine hb.wf.induct_down (P := fun a => ∀ b, a < T.next →
      Arena.Alike NodeData.SameContent old.arena new.arena (g a) b →
      Arena.Alike (fun d e => d.kind = e.kind ∧ d.text = e.text) T (diffable new) a b) ?_ a
  intro a ih b ha h
  cases h with
  | node data len kids =>
    obtain ⟨l1, l2⟩ := hb.look hbody ha
    refine .node ⟨l1.trans data.tdata.1, l2.trans data.tdata.2⟩ ?_ ?_
    · rw [hb.kids a ha, List.length_map] at len; exact len
    · intro i c d hc hd
      exact ih c (List.mem_of_getElem? hc) d (hb.ne_zero_of_child hc).1 (kids i _ d (hb.child_eq ha hc) hd)

theorem same_of_shape (hb : Built old ob T g) (hbody : old.body = some ob)
    (hBw : (diffable new).WF) (hdo : ∀ n, old.arena.Anc ob n → (old.arena.data n).kind ≠ .document)
    (hdn : ∀ n, new.arena.Anc nb n → (new.arena.data n).kind ≠ .document) (hw : old.arena.WF) :
    ∀ a b, T.Anc 0 a → (diffable new).Anc nb b → T.shape a = (diffable new).shape b →
      Arena.Alike NodeData.SameContent old.arena new.arena (g a) b := by
  intro a
  refine hb.wf.induct_down (P := fun a => ∀ b, T.Anc 0 a → (diffable new).Anc nb b →
      T.shape a = (diffable new).shape b →
      Arena.Alike NodeData.SameContent old.arena new.arena (g a) b) ?_ a
  intro a ih b haA haB h
  have ha := hb.lt_of_anc haA
  rw [hb.wf.shape_eq, hBw.shape_eq] at h
  injection h with h1 h2 h3
  obtain ⟨l1, l2⟩ := hb.look hbody ha
  have hlen : (T.children a).length = ((diffable new).children b).length := by
    have := congrArg List.length h3
    simpa using this
  refine .node (NodeData.sameContent_of (hdo _ (hb.ganc hw haA)) (hdn _ (anc_of_diffable haB))
    (l1.symm.trans h1) (l2.symm.trans h2)) ?_ ?_
  · rw [hb.kids a ha, List.length_map]; exact hlen
  · intro i c d hc hd
    rw [hb.kids a ha, List.getElem?_map, Option.map_eq_some_iff] at hc
    obtain ⟨c, hc, rfl⟩ := hc
    have hpc := (hb.wf.mem_iff _ _).1 (List.mem_of_getElem? hc)
    have hpd := (hBw.mem_iff _ _).1 (List.mem_of_getElem? hd)
    refine ih c (List.mem_of_getElem? hc) d (.step hpc haA) (.step hpd haB) ?_
    have := congrArg (fun l => l[i]?) h3
    have hd' : ((diffable new).children b)[i]? = some d := hd
    simp only [List.getElem?_map, hc, hd', Option.map_some, Option.some.injEq] at this
    exact this

end Built

theorem alike_hash' {A B : Arena TData} (hA : A.WF) (hB : B.WF) (ra rb : Nat) {a b : Nat}
    (h : Arena.Alike (fun d e => d.kind = e.kind ∧ d.text = e.text) A B a b) :
    (DiffTree.ofArena hashNode A ra).hash a = (DiffTree.ofArena hashNode B rb).hash b := by
  show A.fold _ a = B.fold _ b
  induction h with
  | @node n m data len kids ih =>
    rw [hA.fold_eq, hB.fold_eq, data.1, data.2]
    congr 1
    apply List.ext_getElem?
    intro i
    rw [List.getElem?_map, List.getElem?_map]
    cases h1 : (A.children n)[i]? with
    | none =>
      have : (B.children m)[i]? = none := by
        rw [List.getElem?_eq_none_iff] at h1 ⊢; omega
      rw [this]; rfl
    | some c =>
      cases h2 : (B.children m)[i]? with
      | none =>
        rw [List.getElem?_eq_none_iff] at h2
        have := (List.getElem?_eq_some_iff.1 h1).1
        omega
      | some d => exact congrArg some (ih i c d h1 h2)

theorem Built.size_eq {T : Arena TData} {g : Nat → Nat} (hb : Built old ob T g) (hw : old.arena.WF) :
    ∀ a, a < T.next → (T.descendants a).length = (old.arena.descendants (g a)).length := by
  intro a
  refine hb.wf.induct_down (P := fun a => a < T.next →
    (T.descendants a).length = (old.arena.descendants (g a)).length) ?_ a
  intro a ih ha
  rw [Hotmeal.size_eq hb.wf, Hotmeal.size_eq hw, hb.kids a ha, List.map_map]
  congr 2
  apply List.map_congr_left
  intro c hc
  exact ih c hc (hb.wf.lt_of_parent _ _ ((hb.wf.mem_iff _ _).1 hc)).1

theorem Arena.Alike.placeA {α β : Type} {R : α → β → Prop} {A : Arena α} {B : Arena β} (hA : A.WF)
    {ra rb n : Nat} (h : Arena.Alike R A B ra rb) (hn : A.Anc ra n) :
    ∃ m, Place A B ra rb n m ∧ Arena.Alike R A B n m := by
  induction hn with
  | refl => exact ⟨rb, .root, h⟩
  | @step n p hp _ ih =>
    obtain ⟨q, hq, hal⟩ := ih
    obtain ⟨i, hi⟩ := List.mem_iff_getElem?.1 ((hA.mem_iff _ _).2 hp)
    cases hal with
    | node _ len kids =>
      have hlt := (List.getElem?_eq_some_iff.1 hi).1
      obtain ⟨d, hd⟩ : ∃ d, (B.children q)[i]? = some d := ⟨_, List.getElem?_eq_getElem (by omega)⟩
      exact ⟨d, .child hq hi hd, kids i n d hi hd⟩

theorem Arena.Alike.placeB {α β : Type} {R : α → β → Prop} {A : Arena α} {B : Arena β} (hB : B.WF)
    {ra rb m : Nat} (h : Arena.Alike R A B ra rb) (hm : B.Anc rb m) :
    ∃ n, Place A B ra rb n m ∧ Arena.Alike R A B n m := by
  induction hm with
  | refl => exact ⟨ra, .root, h⟩
  | @step m q hq _ ih =>
    obtain ⟨p, hp, hal⟩ := ih
    obtain ⟨i, hi⟩ := List.mem_iff_getElem?.1 ((hB.mem_iff _ _).2 hq)
    cases hal with
    | node _ len kids =>
      have hlt := (List.getElem?_eq_some_iff.1 hi).1
      obtain ⟨c, hc⟩ : ∃ c, (A.children p)[i]? = some c := ⟨_, List.getElem?_eq_getElem (by omega)⟩
      exact ⟨c, .child hp hc hi, kids i c m hc hi⟩

namespace TextEdit

theorem clear_old (ht : TextEdit old new ob nb) (hw : old.arena.WF) : old.Clear ob := by
  intro n tag attrs hn hk
  obtain ⟨m, _, hal⟩ := ht.alike.placeA hw hn
  cases hal with
  | node data _ _ =>
    unfold NodeData.Counterpart at data
    rw [hk] at data
    split at data
    · next e _ => cases e; exact data.2.2.1
    · next e _ => cases e
    · next e _ => cases e
    · exact data.elim

theorem clear_new (ht : TextEdit old new ob nb) (hw : new.arena.WF) : new.Clear nb := by
  intro m tag attrs hm hk
  obtain ⟨n, _, hal⟩ := ht.alike.placeB hw hm
  cases hal with
  | node data _ _ =>
    unfold NodeData.Counterpart at data
    rw [hk] at data
    split at data
    · next e => cases e; exact data.2.2.2.1
    · next e => cases e
    · next e => cases e
    · exact data.elim

theorem no_document {D : Document} {b : Nat} (h : D.Plain b) (n : Nat) (hn : D.arena.Anc b n) :
    (D.arena.data n).kind ≠ .document := by
  obtain ⟨_, na, hnk⟩ := Document.body_spec h.body
  rcases hn.cases' with rfl | ⟨p, hp, _⟩
  · rw [hnk]; intro e; cases e
  · exact h.sound.arena.nodoc n p hp

theorem similar (h : Comparable old new ob nb) (ht : TextEdit old new ob nb) {T : Arena TData}
    {g : Nat → Nat} (hb : Built old ob T g) : Arena.Alike TData.Similar T (diffable new) 0 nb := by
  have so := h.old.sound.arena
  have sn := h.new.sound.arena
  have below : ∀ a b, a < T.next → a ≠ 0 →
      Arena.Alike NodeData.Counterpart old.arena new.arena (g a) b →
      Arena.Alike TData.Similar T (diffable new) a b := by
    intro a
    refine hb.wf.induct_down (P := fun a => ∀ b, a < T.next → a ≠ 0 →
      Arena.Alike NodeData.Counterpart old.arena new.arena (g a) b →
      Arena.Alike TData.Similar T (diffable new) a b) ?_ a
    intro a ih b ha h0 hal
    cases hal with
    | node data len kids =>
      refine .node ?_ ?_ ?_
      · rw [hb.data a ha h0]
        show (tdataOf (old.arena.data (g a))).Similar (tdataOf (new.arena.data b))
        unfold NodeData.Counterpart at data
        split at data
        · next e1 e2 =>
          obtain ⟨rfl, h2, h3, h4, h5⟩ := data
          simp only [tdataOf, e1, e2, h2]
          exact ⟨rfl, h3, h4, Attrs.similarity_half (so.uniq _ _ _ e1) (sn.uniq _ _ _ e2) h5⟩
        · next e1 e2 =>
          simp only [tdataOf, e1, e2]
          exact ⟨rfl, rfl, rfl, rfl⟩
        · next e1 e2 =>
          simp only [tdataOf, e1, e2]
          exact ⟨rfl, rfl, rfl, rfl⟩
        · exact data.elim
      · rw [hb.kids a ha, List.length_map] at len; exact len
      · intro i c d hc hd
        have := hb.ne_zero_of_child hc
        exact ih c (List.mem_of_getElem? hc) d this.1 this.2 (kids i _ d (hb.child_eq ha hc) hd)
  obtain ⟨_, oa, hok⟩ := Document.body_spec h.old.body
  cases ht.alike with
  | node data len kids =>
    refine .node ?_ ?_ ?_
    · rw [hb.rdata]
      show TData.Similar _ (tdataOf (new.arena.data nb))
      simp only [tdataOf, ht.bare, bodyKind, hok, h.ns]
      exact ⟨rfl, rfl, rfl, rfl⟩
    · rw [← hb.g0, hb.kids 0 hb.pos, List.length_map] at len
      exact len
    · intro i c d hc hd
      have h1 := hb.ne_zero_of_child hc
      refine below c d h1.1 h1.2 (kids i _ d ?_ hd)
      rw [← hb.g0]; exact hb.child_eq hb.pos hc

theorem settled (h : Comparable old new ob nb)
    (hc : NoCollision hashNode (buildTree old ob) (diffable new) nb) (ht : TextEdit old new ob nb)
    {g : Nat → Nat} (hb : Built old ob (buildTree old ob) g) (hBw : (diffable new).WF) :
    Settled hashNode (buildTree old ob) (diffable new) 0 nb := by
  have hal := ht.similar h hb
  have hw := h.old.sound.arena.wf
  refine ⟨hal, ?_⟩
  intro a b hl he
  have hsame := fun a b h1 h2 e => hb.same_of_shape (new := new) (nb := nb) h.old.body hBw
    (no_document h.old) (no_document h.new) hw a b h1 h2 (hc a b h1 h2 e)
  obtain ⟨ha, hdep⟩ := hb.depth_of_level hw hl
  obtain ⟨h1, h2⟩ := ht.apart (g a) b hdep (hsame a b hl.ancA hl.ancB he)
  constructor
  · intro y hy
    exact alike_hash' hb.wf hBw 0 nb (hb.shape_of_same h.old.body a y ha (h1 y (hb.place_of_corr hy).2))
  · intro x hx
    obtain ⟨h3, h4⟩ := hb.place_of_corr hx
    exact alike_hash' hb.wf hBw 0 nb (hb.shape_of_same h.old.body x b h3 (h2 (g x) h4))

theorem mostlyKept (h : Comparable old new ob nb) (ht : TextEdit old new ob nb)
    {g : Nat → Nat} (hb : Built old ob (buildTree old ob) g) (hBw : (diffable new).WF) :
    MostlyKept hashNode (buildTree old ob) (diffable new) 0 nb := by
  have hal := ht.similar h hb
  obtain ⟨l, h1, h2, h3⟩ := ht.most
  have hex : ∀ x ∈ l, ∃ a, g a = x ∧ ∃ y, Corr (buildTree old ob) (diffable new) 0 nb a y ∧
      (DiffTree.ofArena hashNode (buildTree old ob) 0).hash a =
        (DiffTree.ofArena hashNode (diffable new) nb).hash y := by
    intro x hx
    obtain ⟨y, h4, h5⟩ := h2 x hx
    obtain ⟨a, h6, rfl, h7⟩ := hb.corr_of_place hal h4
    exact ⟨a, rfl, y, h7, alike_hash' hb.wf hBw 0 nb (hb.shape_of_same h.old.body a y h6 h5)⟩
  have hch : ∃ f : Nat → Nat, ∀ x ∈ l, g (f x) = x ∧ ∃ y,
      Corr (buildTree old ob) (diffable new) 0 nb (f x) y ∧
      (DiffTree.ofArena hashNode (buildTree old ob) 0).hash (f x) =
        (DiffTree.ofArena hashNode (diffable new) nb).hash y := by
    refine ⟨fun x => if hx : x ∈ l then (hex x hx).choose else 0, fun x hx => ?_⟩
    simp only [hx, dif_pos]
    exact (hex x hx).choose_spec
  obtain ⟨f, hf⟩ := hch
  refine ⟨l.map f, ?_, ?_, ?_⟩
  · unfold List.Nodup
    rw [List.pairwise_map]
    refine List.Pairwise.imp_of_mem ?_ h1
    intro x y hx hy hne e
    apply hne
    rw [← (hf x hx).1, ← (hf y hy).1, e]
  · intro a ha
    obtain ⟨x, hx, rfl⟩ := List.mem_map.1 ha
    exact (hf x hx).2
  · rw [hb.size_eq h.old.sound.arena.wf 0 hb.pos, hb.g0, List.length_map]
    exact h3

theorem only_body (h : Comparable old new ob nb) {g : Nat → Nat} (hb : Built old ob (buildTree old ob) g)
    (b : Nat) (hbn : (diffable new).Anc nb b)
    (hk : ((diffable new).data b).kind = ((buildTree old ob).data 0).kind) : b = nb := by
  obtain ⟨_, oa, hok⟩ := Document.body_spec h.old.body
  rw [hb.rdata] at hk
  have hk' : (tdataOf (new.arena.data b)).kind = bodyKind old ob := hk
  simp only [bodyKind, hok] at hk'
  cases e : (new.arena.data b).kind with
  | element tag attrs =>
    simp only [tdataOf, e, HKind.element.injEq] at hk'
    rw [hk'.1] at e
    exact h.new.apart b attrs (anc_of_diffable hbn) e
  | _ => simp [tdataOf, e] at hk'

end TextEdit

/-! ### The patches -/

/-- The patch for an update. -/
def updatePatch (S : Shadow) : EditOp → Patch
  | .updateProps a _ ch => .updateProps (S.computePath a) (ch.map fun c => ⟨c.key, match c.value with
        | .same => none
        | .different v => some v⟩)
  | .setText a _ t => .setText (S.computePath a) t
  | _ => .remove []

theorem convertLoop_edits (B : Arena TData) (ins : List Nat) (C : Conv) (ops : List EditOp)
    (h : ∀ op ∈ ops, (∃ a b ch, op = .updateProps a b ch) ∨ ∃ a b t, op = .setText a b t) :
    convertLoop B ins C ops = .ok (C, ops.map (updatePatch C.shadow)) ∧
    ancestorFree B ins C ops = true := by
  induction ops with
  | nil => exact ⟨rfl, rfl⟩
  | cons op ops ih =>
    obtain ⟨e, e'⟩ := ih (fun op hop => h op (by simp [hop]))
    rcases h op (by simp) with ⟨a, b, ch, rfl⟩ | ⟨a, b, t, rfl⟩
    · constructor
      · simp only [convertLoop, convertOp, bind, Except.bind, e]
        rfl
      · simp only [ancestorFree, convertOp, e', Bool.and_self]
    · constructor
      · simp only [convertLoop, convertOp, bind, Except.bind, e]
        rfl
      · simp only [ancestorFree, convertOp, e', Bool.and_self]

/-- With a single slot, a node has at most one path. -/
theorem Leads.path_unique {A : Arena NodeData} {slots : Slots} {r x : Nat} {q q' : Path}
    (h : Leads A slots q x) (hw : A.WF) (hs : ∀ s, slots s = if s = 0 then some r else none)
    (h' : Leads A slots q' x) : q = q' := by
  have hanc : ∀ {q : Path} {x : Nat}, Leads A slots q x → A.Anc r x := by
    intro q x h
    induction h with
    | @slot s r' h =>
      rw [hs] at h
      split at h
      · cases h; exact .refl
      · cases h
    | child _ hc ih => exact .step ((hw.mem_iff _ _).1 (List.mem_of_getElem? hc)) ih
  have h0 : ∀ {s x : Nat}, slots s = some x → s = 0 ∧ x = r := by
    intro s x h
    rw [hs] at h
    split at h
    · next e => exact ⟨e, (Option.some.inj h).symm⟩
    · cases h
  induction h generalizing q' with
  | slot h =>
    obtain ⟨rfl, rfl⟩ := h0 h
    cases h' with
    | slot h' => rw [(h0 h').1]
    | child h1 hc =>
      exact absurd (hanc h1) (not_anc_parent hw ((hw.mem_iff _ _).1 (List.mem_of_getElem? hc)))
  | child h1 hc ih =>
    have hp := (hw.mem_iff _ _).1 (List.mem_of_getElem? hc)
    cases h' with
    | slot h' =>
      obtain ⟨_, rfl⟩ := h0 h'
      exact absurd (hanc h1) (not_anc_parent hw hp)
    | child h2 hc' =>
      have hp' := (hw.mem_iff _ _).1 (List.mem_of_getElem? hc')
      rw [hp] at hp'; cases hp'
      rw [ih h2, List.nodup_getElem?_inj (hw.nodup _) hc hc']

/-- **C51**, partial: if the new body has the structure of the old one and the texts are edited here and
there, `diff` gives updates of texts and attributes only, so no node is created, removed or moved. There is
a SetText for exactly the texts (and comments) that have changed, with the new text; its path leads to the
old node. Applied to the old document, the patches give the new body.

Missing from the full statement: changes that are not small in the sense of `TextEdit`. For them the
statement is false (`C51_violated`, `C51_violated_by_body_attributes`, `C51_violated_by_equal_texts`). -/
theorem C51_text_edits_give_text_patches_partial (parse : Str → Document) (h : Comparable old new ob nb)
    (hc : NoCollision hashNode (buildTree old ob) (diffable new) nb) (ht : TextEdit old new ob nb) :
    ∃ ps old', diff hashNode old new = .ok ps ∧
      (∀ P ∈ ps, (∃ q t, P = .setText q t) ∨ ∃ q ch, P = .updateProps q ch) ∧
      (∀ q t, .setText q t ∈ ps ↔ ∃ x y s, Place old.arena new.arena ob nb x y ∧
        (old.arena.data x).content = some s ∧ (new.arena.data y).content = some t ∧ s ≠ t ∧
        Leads old.arena (initSlots old).2 q x) ∧
      applyPatches parse old ps = .ok old' ∧ old'.toBodyHtml = new.toBodyHtml := by
  obtain ⟨g, hb⟩ := buildTree_spec old h.old.sound.arena.leafy ob
  have sn := h.new.sound.arena
  have hBw : (diffable new).WF :=
    ⟨sn.wf.lt_of_parent, sn.wf.mem_iff, sn.wf.nodup, sn.wf.acyclic⟩
  have hs := ht.settled h hc hb hBw
  obtain ⟨hgood, hp⟩ := hs.diffMatching_spec hb.wf hBw hb.root (TextEdit.only_body h hb)
    (ht.mostlyKept h hb hBw)
  have hops := fun op => script_corr (hashNode := hashNode) hb.wf hBw hb.pos hb.root hs.alike hgood hp op
  obtain ⟨S, hS, hinit⟩ := Shadow.new_init hb.wf hb.pos hb.root
  obtain ⟨e1, e2⟩ := convertLoop_edits (diffable new)
    (insertedNodes (scriptOf hashNode (buildTree old ob) (diffable new) 0 nb
      (diffMatching (oldTree hashNode old ob) (newTree hashNode new nb))))
    ⟨S, initBToShadow (diffMatching (oldTree hashNode old ob) (newTree hashNode new nb))⟩ _ hops
  have hof := opaqueFixed_of_clear (hashNode := hashNode) h (ht.clear_old h.old.sound.arena.wf)
    (ht.clear_new sn.wf)
  have hfree : NoMoveBelowSelf hashNode old new ob nb := by
    intro S' hS'
    rw [hS] at hS'
    cases hS'
    exact e2
  obtain ⟨ps, old', h1, h2, h3, _⟩ := C01_round_trip_partial parse h hc hof (.inl hfree)
  have hnd : ((new.arena.descendants nb).any fun n =>
      decide ((new.arena.data n).kind = .document)) = false := by
    rw [List.any_eq_false]
    intro n hn
    simpa using TextEdit.no_document h.new n ((sn.wf.mem_descendants _ _).1 hn)
  have hoc : opaqueChanges (oldTree hashNode old ob) (newTree hashNode new nb) new.arena
      (diffMatching (oldTree hashNode old ob) (newTree hashNode new nb)) = [] := by
    unfold opaqueChanges
    rw [List.filterMap_eq_nil_iff]
    intro p hpp
    have hcl : (newTree hashNode new nb).isOpaque p.2 = false :=
      (((hp p.1 p.2).1 hpp).alike hs.alike).similar.clear'
    rw [hcl]; rfl
  have hps : ps = (scriptOf hashNode (buildTree old ob) (diffable new) 0 nb
      (diffMatching (oldTree hashNode old ob) (newTree hashNode new nb))).map (updatePatch S) := by
    unfold diff at h1
    simp only [h.old.body, h.new.body, hnd, Bool.false_eq_true, if_false, convertOps, hS, hoc,
      opaquePatches, List.isEmpty_nil, if_true, bind, Except.bind] at h1
    simp only [scriptOf, oldTree, newTree] at e1 h1 ⊢
    simp only [e1, List.append_nil, Except.ok.injEq] at h1
    exact h1.symm
  have hlead : ∀ a, a < (buildTree old ob).next → Leads old.arena (initSlots old).2 (S.computePath a) (g a) := by
    intro a ha
    refine hb.leads hinit ?_ ha
    rw [h.initSlots_eq]
    simp [Arena.upd]
  refine ⟨ps, old', h1, ?_, ?_, h2, h3⟩
  · intro P hP
    rw [hps, List.mem_map] at hP
    obtain ⟨op, hop, rfl⟩ := hP
    rcases hops op hop with ⟨a, b, ch, rfl⟩ | ⟨a, b, t, rfl⟩
    · exact .inr ⟨_, _, rfl⟩
    · exact .inl ⟨_, _, rfl⟩
  · intro q t
    rw [hps, List.mem_map]
    constructor
    · rintro ⟨op, hop, e⟩
      rcases hops op hop with ⟨a, b, ch, rfl⟩ | ⟨a, b, t', rfl⟩
      · cases e
      · simp only [updatePatch, Patch.setText.injEq] at e
        obtain ⟨rfl, rfl⟩ := e
        rw [C13_text_updates_exactly_when_needed hb.wf hBw] at hop
        obtain ⟨hm, _, _, ht1, ht2⟩ := hop
        have hcr := (hp a b).1 hm
        obtain ⟨ha, hpl⟩ := hb.place_of_corr hcr
        have hk := (hcr.alike hs.alike).similar.kind
        have hnt : (new.arena.data b).content = some t' := by
          rw [← NodeData.content_eq]; exact ht1
        have hl := (hb.look h.old.body ha)
        have hot : ∃ s, (old.arena.data (g a)).content = some s := by
          rw [hl.1] at hk
          have hk' : (tdataOf (old.arena.data (g a))).kind = (tdataOf (new.arena.data b)).kind := hk
          have hdoc := TextEdit.no_document h.old (g a) (hb.ganc h.old.sound.arena.wf (hcr.ancA hb.wf))
          unfold tdataOf at hk'
          unfold NodeData.content at hnt ⊢
          cases eo : (old.arena.data (g a)).kind <;> cases en : (new.arena.data b).kind <;>
            simp_all
        obtain ⟨s, hot⟩ := hot
        refine ⟨g a, b, s, hpl, hot, hnt, ?_, hlead a ha⟩
        rintro rfl
        apply ht2
        rw [hl.2, NodeData.content_eq, hot]
    · rintro ⟨x, y, s, hpl, hxs, hyt, hne, hl⟩
      obtain ⟨a, ha, rfl, hcr⟩ := hb.corr_of_place hs.alike hpl
      refine ⟨.setText a y t, ?_, ?_⟩
      · rw [C13_text_updates_exactly_when_needed hb.wf hBw]
        refine ⟨(hp a y).2 hcr, ?_, ?_, ?_, ?_⟩
        · rw [← mem_opaqueDescendants hashNode _ _ hb.wf]; exact hs.not_insideA hb.wf hBw a
        · rw [← mem_opaqueDescendants hashNode _ _ hBw]; exact hs.not_insideB hb.wf hBw y
        · show (tdataOf (new.arena.data y)).text = some t
          rw [NodeData.content_eq, hyt]
        · rw [(hb.look h.old.body ha).2, NodeData.content_eq, hxs]
          intro e; exact hne (Option.some.inj e)
      · show Patch.setText _ t = _
        congr 1
        have hl0 := hlead a ha
        rw [h.initSlots_eq] at hl hl0
        exact hl0.path_unique (r := ob) h.old.sound.arena.wf (fun s => by
          by_cases e : s = 0 <;> simp [Arena.upd, e]) hl

/-! ### Concrete cases -/

/-- Checker for `NodeData.Counterpart`. -/
def counterpartB (d e : NodeData) : Bool :=
  match d.kind, e.kind with
  | .element tag attrs, .element tag' attrs' => tag == tag' && decide (d.ns = e.ns) && !attrs.marked &&
    !attrs'.marked &&
    decide (attrs.keys.length + attrs'.keys.length ≤ 4 * (attrs.keys.filter fun k => k ∈ attrs'.keys).length)
  | .text _, .text _ => true
  | .comment _, .comment _ => true
  | _, _ => false

theorem counterpartB_spec (d e : NodeData) (h : counterpartB d e = true) : d.Counterpart e := by
  obtain ⟨k, ns⟩ := d
  obtain ⟨k', ns'⟩ := e
  cases k <;> cases k' <;> simp_all [counterpartB, NodeData.Counterpart]

/-- Checker for `NodeData.SameContent`. -/
def sameContentB (d e : NodeData) : Bool :=
  match d.kind, e.kind with
  | .element tag _, .element tag' _ => tag == tag' && decide (d.ns = e.ns)
  | .text s, .text s' => s == s'
  | .comment s, .comment s' => s == s'
  | _, _ => false

theorem sameContentB_spec (d e : NodeData) (h : sameContentB d e = true) : d.SameContent e := by
  obtain ⟨k, ns⟩ := d
  obtain ⟨k', ns'⟩ := e
  cases k <;> cases k' <;> simp_all [sameContentB, NodeData.SameContent]

theorem SameDepth.ancs {α β : Type} {A : Arena α} {B : Arena β} {ra rb x y : Nat}
    (h : SameDepth A B ra rb x y) : A.Anc ra x ∧ B.Anc rb y := by
  induction h with
  | root => exact ⟨.refl, .refl⟩
  | child _ ha hb ih => exact ⟨.step ha ih.1, .step hb ih.2⟩

theorem Place.same {α β : Type} {A : Arena α} {B : Arena β} {r x y : Nat}
    (hc : ∀ p, A.children p = B.children p) (h : Place A B r r x y) : x = y := by
  induction h with
  | root => rfl
  | child _ ha hb ih =>
    subst ih
    rw [hc, hb] at ha
    exact (Option.some.inj ha).symm

theorem sameContent_shape {D E : Document} (hD : (diffable D).WF) (hE : (diffable E).WF) {x y : Nat}
    (h : Arena.Alike NodeData.SameContent D.arena E.arena x y) :
    (diffable D).shape x = (diffable E).shape y := by
  have h' : Arena.Alike (fun d e => d.kind = e.kind ∧ d.text = e.text) (diffable D) (diffable E) x y := by
    induction h with
    | node data len _ ih => exact .node data.tdata len ih
  exact alike_hash' (hashNode := Shape.node) hD hE 0 0 h'

/-- Checker for `TextEdit` on documents with the same node numbers. -/
def textEditB (D E : Document) (b : Nat) (kept : List Nat) : Bool :=
  decide ((E.arena.data b).kind = .element "body".toList []) &&
  alikeB counterpartB D.arena E.arena 9 b b &&
  decide (D.arena.next = E.arena.next) &&
  (List.range D.arena.next).all (fun p => decide (D.arena.children p = E.arena.children p)) &&
  (D.arena.descendants b).all (fun x => (E.arena.descendants b).all fun y =>
    !decide ((diffable D).shape x = (diffable E).shape y) ||
    (alikeB sameContentB D.arena E.arena 9 x x && alikeB sameContentB D.arena E.arena 9 y y)) &&
  decide kept.Nodup && kept.all (fun x => decide (x ∈ D.arena.descendants b) &&
    alikeB sameContentB D.arena E.arena 9 x x) &&
  decide ((D.arena.descendants b).length ≤ 2 * kept.length)

theorem textEdit_of {D E : Document} {b : Nat} {kept : List Nat} (hD : D.arena.WF) (hE : E.arena.WF)
    (h : textEditB D E b kept = true) : TextEdit D E b b := by
  simp only [textEditB, Bool.and_eq_true, decide_eq_true_eq, List.all_eq_true, List.mem_range,
    Bool.or_eq_true, Bool.not_eq_true', decide_eq_false_iff_not] at h
  obtain ⟨⟨⟨⟨⟨⟨⟨h1, h2⟩, h3⟩, h4⟩, h5⟩, h6⟩, h7⟩, h8⟩ := h
  have hout : ∀ {α : Type} {A : Arena α}, A.WF → ∀ p, A.next ≤ p → A.children p = [] := by
    intro α A hA p hp
    cases e : A.children p with
    | nil => rfl
    | cons c l =>
      have := (hA.lt_of_parent c p ((hA.mem_iff _ _).1 (by rw [e]; simp))).2
      omega
  have hkids : ∀ p, D.arena.children p = E.arena.children p := by
    intro p
    rcases Nat.lt_or_ge p D.arena.next with hp | hp
    · exact h4 p hp
    · rw [hout hD p hp, hout hE p (by omega)]
  have hal := alike_of_alikeB (R' := NodeData.Counterpart) counterpartB_spec h2
  refine ⟨h1, hal, ?_, kept, h6, ?_, h8⟩
  · intro x y hd hs
    obtain ⟨hx, hy⟩ := hd.ancs
    rcases h5 x ((hD.mem_descendants _ _).2 hx) y ((hE.mem_descendants _ _).2 hy) with h | h
    · exact absurd (sameContent_shape (Built.diffable_wf hD) (Built.diffable_wf hE) hs) h
    · refine ⟨fun y' hy' => ?_, fun x' hx' => ?_⟩
      · rw [← Place.same hkids hy']; exact alike_of_alikeB sameContentB_spec h.1
      · rw [Place.same hkids hx']; exact alike_of_alikeB sameContentB_spec h.2
  · intro x hx
    obtain ⟨y, hy, _⟩ := hal.placeA hD ((hD.mem_descendants _ _).1 (h7 x hx).1)
    have := Place.same hkids hy
    subst this
    exact ⟨x, hy, alike_of_alikeB sameContentB_spec (h7 x hx).2⟩

/-- A page with a heading and a list. -/
def page1 : List Html :=
  [ex "h1" [("id", "t")] [.text "News".toList],
    ex "ul" [("class", "a"), ("id", "l")] [ex "li" [] [.text "one".toList], ex "li" [] [.text "two".toList],
      ex "li" [] [.text "three".toList]]]
/-- The page with another second item and other attributes of the list. -/
def page2 : List Html :=
  [ex "h1" [("id", "t")] [.text "News".toList],
    ex "ul" [("id", "l"), ("class", "b")] [ex "li" [] [.text "one".toList], ex "li" [] [.text "2".toList],
      ex "li" [] [.text "three".toList]]]

/-- The hypotheses of C51 hold for `page1` and `page2`, which need two patches. -/
example : Comparable (.ofForest page1) (.ofForest page2) 2 2 ∧
    NoCollision Shape.node (buildTree (.ofForest page1) 2) (diffable (.ofForest page2)) 2 ∧
    TextEdit (.ofForest page1) (.ofForest page2) 2 2 ∧
    (match diff Shape.node (.ofForest page1) (.ofForest page2) with
      | .ok [.setText q t, .updateProps q' _] => decide (q = [0, 1, 1, 0] ∧ t = "2".toList ∧ q' = [0, 1])
      | .ok [.updateProps q' _, .setText q t] => decide (q = [0, 1, 1, 0] ∧ t = "2".toList ∧ q' = [0, 1])
      | _ => false) = true := by
  have h1 := ofForest_valid page1 (by decide +kernel)
  have h2 := ofForest_valid page2 (by decide +kernel)
  exact ⟨comparable_ofForest (by decide +kernel) (by decide +kernel), noCollision_shape _ _ _,
    textEdit_of (kept := [3, 4, 6, 7, 10, 11]) h1.wf h2.wf (by decide +kernel), by decide +kernel⟩

/-- There is a patch that creates, moves or removes a node. -/
def restructures (ps : List Patch) : Bool := ps.any fun
  | .setText .. => false
  | .updateProps .. => false
  | _ => true

/-- **C51** is violated when less than half of the nodes are kept: changing the only text of the page
creates its paragraph again. -/
theorem C51_violated : ∃ cs ds : List Html,
    Arena.Alike NodeData.Counterpart (Document.ofForest cs).arena (Document.ofForest ds).arena 2 2 ∧
    (match diff Shape.node (.ofForest cs) (.ofForest ds) with
      | .ok ps => ps.any fun
        | .insertElement _ tag _ _ _ => decide (tag = "p".toList)
        | _ => false
      | .error _ => false) = true :=
  ⟨[ex "p" [] [.text "a".toList]], [ex "p" [] [.text "b".toList]],
    alike_of_alikeB (k := 5) counterpartB_spec (by decide +kernel), by decide +kernel⟩

/-- **C51** is violated when an edited text becomes equal to that of a sibling. -/
theorem C51_violated_by_equal_texts : ∃ cs ds : List Html,
    Arena.Alike NodeData.Counterpart (Document.ofForest cs).arena (Document.ofForest ds).arena 2 2 ∧
    (∃ l : List Nat, l.Nodup ∧ (∀ x ∈ l, x ∈ (Document.ofForest cs).arena.descendants 2 ∧
      Arena.Alike NodeData.SameContent (Document.ofForest cs).arena (Document.ofForest ds).arena x x) ∧
      ((Document.ofForest cs).arena.descendants 2).length ≤ 2 * l.length) ∧
    (match diff Shape.node (.ofForest cs) (.ofForest ds) with
      | .ok ps => restructures ps
      | .error _ => false) = true := by
  refine ⟨[ex "p" [] [.text "y".toList], ex "p" [] [.text "x".toList], ex "q" [] []],
    [ex "p" [] [.text "y".toList], ex "p" [] [.text "y".toList], ex "q" [] []],
    alike_of_alikeB (k := 5) counterpartB_spec (by decide +kernel), ⟨[3, 4, 7], by decide +kernel, ?_, by decide +kernel⟩,
    by decide +kernel⟩
  intro x hx
  have hx' : x = 3 ∨ x = 4 ∨ x = 7 := by simpa using hx
  rcases hx' with rfl | rfl | rfl
  all_goals exact ⟨by decide +kernel, alike_of_alikeB (k := 5) sameContentB_spec (by decide +kernel)⟩

/-- A document with attributes on its body. -/
def Document.ofForestIn (attrs : Attrs) (cs : List Html) : Document :=
  { Document.ofForest cs with arena := { (Document.ofForest cs).arena with
      data := Arena.upd (Document.ofForest cs).arena.data 2 ⟨.element "body".toList attrs, .html⟩ } }

/-- Three paragraphs. -/
def three1 : List Html :=
  [ex "p" [] [.text "a".toList], ex "q" [] [.text "b".toList], ex "r" [] [.text "c".toList]]
/-- Three paragraphs, the text of the second one changed. -/
def three2 : List Html :=
  [ex "p" [] [.text "a".toList], ex "q" [] [.text "x".toList], ex "r" [] [.text "c".toList]]

/-- **C51** is violated when the body has attributes, the same in both documents: a paragraph is created again
although nothing but its text has changed. -/
theorem C51_violated_by_body_attributes : ∃ (attrs : Attrs) (cs ds : List Html),
    (Document.ofForestIn attrs cs).body = some 2 ∧ (Document.ofForestIn attrs ds).body = some 2 ∧
    TextEdit (.ofForest cs) (.ofForest ds) 2 2 ∧
    Arena.Alike NodeData.Counterpart (Document.ofForestIn attrs cs).arena
      (Document.ofForestIn attrs ds).arena 2 2 ∧
    (match diff Shape.node (.ofForestIn attrs cs) (.ofForestIn attrs ds) with
      | .ok ps => restructures ps
      | .error _ => false) = true := by
  have h1 := ofForest_valid three1 (by decide +kernel)
  have h2 := ofForest_valid three2 (by decide +kernel)
  exact ⟨[(⟨none, [], "class".toList⟩, "x".toList)], three1, three2, by decide +kernel, by decide +kernel,
    textEdit_of (kept := [3, 4, 7, 8]) h1.wf h2.wf (by decide +kernel),
    alike_of_alikeB (k := 5) counterpartB_spec (by decide +kernel), by decide +kernel⟩

end Hotmeal
