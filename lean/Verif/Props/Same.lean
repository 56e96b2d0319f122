import Verif.Lemmas.Same
import Verif.Lemmas.Trace
import Verif.Props.RoundTrip

set_option autoImplicit false
set_option linter.unusedSectionVars false

/-!
# C04, C38: documents that are equal, or equal up to attributes
-/

namespace Hotmeal

variable {H : Type} [DecidableEq H] {hashNode : HKind → Option Str → List H → H}
  {old new : Document} {ob nb : Nat}

/-- The same node: same kind, text, tag, attributes and, for elements, namespace. -/
def NodeData.Same (d e : NodeData) : Prop :=
  d.kind = e.kind ∧ ((∃ tag attrs, d.kind = .element tag attrs) → d.ns = e.ns)

/-- The same node up to the attributes, which agree on whether the element is opaque. -/
def NodeData.SameButAttrs (d e : NodeData) : Prop :=
  d.kind = e.kind ∧ (∀ tag attrs, d.kind ≠ .element tag attrs) ∨
  ∃ tag attrs attrs', d.kind = .element tag attrs ∧ e.kind = .element tag attrs' ∧ d.ns = e.ns ∧
    attrs.marked = attrs'.marked

theorem NodeData.Same.butAttrs {d e : NodeData} (h : d.Same e) : d.SameButAttrs e := by
  by_cases hk : ∃ tag attrs, d.kind = .element tag attrs
  · obtain ⟨tag, attrs, hk'⟩ := hk
    exact .inr ⟨tag, attrs, attrs, hk', h.1 ▸ hk', h.2 ⟨tag, attrs, hk'⟩, rfl⟩
  · exact .inl ⟨h.1, fun tag attrs e => hk ⟨tag, attrs, e⟩⟩

theorem NodeData.SameButAttrs.like {d e : NodeData} (h : d.SameButAttrs e) :
    (tdataOf d).Like (tdataOf e) := by
  obtain ⟨k, ns⟩ := d
  obtain ⟨k', ns'⟩ := e
  rcases h with ⟨h1, h2⟩ | ⟨tag, attrs, attrs', h1, h2, h3, h4⟩
  · simp only at h1
    subst h1
    cases k with
    | element tag attrs => exact absurd rfl (h2 tag attrs)
    | _ => exact ⟨rfl, rfl, rfl⟩
  · simp only at h1 h2 h3
    subst h1; subst h2; subst h3
    exact ⟨rfl, rfl, h4⟩

/-- From documents to the trees that are compared. -/
theorem Built.alike {T : Arena TData} {g : Nat → Nat} (hb : Built old ob T g) :
    ∀ n m, n < T.next → n ≠ 0 →
      Arena.Alike NodeData.SameButAttrs old.arena new.arena (g n) m →
      Arena.Alike TData.Like T (diffable new) n m := by
  intro n
  refine hb.wf.induct_down (P := fun n => ∀ m, n < T.next → n ≠ 0 →
      Arena.Alike NodeData.SameButAttrs old.arena new.arena (g n) m →
      Arena.Alike TData.Like T (diffable new) n m) ?_ n
  intro n ih m hn h0 h
  cases h with
  | node data len kids =>
  refine .node ?_ ?_ ?_
  · rw [hb.data n hn h0]; exact data.like
  · rw [hb.kids n hn, List.length_map] at len
    exact len
  · intro i c d hc hd
    have hpar := (hb.wf.mem_iff _ _).1 (List.mem_of_getElem? hc)
    refine ih c (List.mem_of_getElem? hc) d (hb.wf.lt_of_parent _ _ hpar).1 ?_ (kids i _ d ?_ hd)
    · rintro rfl; rw [hb.root] at hpar; cases hpar
    · rw [hb.kids n hn, List.getElem?_map, hc]; rfl

/-- The documents and their bodies. -/
structure Bodies (D E : Document) (ob nb : Nat) : Prop where
  old : D.Sound
  new : E.Sound
  oldBody : D.body = some ob
  newBody : E.body = some nb

theorem Bodies.alike (h : Bodies old new ob nb)
    (hal : Arena.Alike NodeData.SameButAttrs old.arena new.arena ob nb)
    (hop : ∀ attrs, (new.arena.data nb).kind = .element "body".toList attrs → attrs.isOpaque = false)
    {T : Arena TData} {g : Nat → Nat} (hb : Built old ob T g) :
    Arena.Alike TData.Like T (diffable new) 0 nb := by
  obtain ⟨_, oa, hok⟩ := Document.body_spec h.oldBody
  obtain ⟨_, na, hnk⟩ := Document.body_spec h.newBody
  cases hal with
  | node data len kids =>
  have hns : (old.arena.data ob).ns = (new.arena.data nb).ns := by
    rcases data with ⟨_, h2⟩ | ⟨_, _, _, _, _, h3, _⟩
    · exact absurd hok (h2 _ _)
    · exact h3
  have hd : (diffable new).data nb = ⟨.element "body".toList (new.arena.data nb).ns, na, none⟩ := by
    show tdataOf (new.arena.data nb) = _
    simp only [tdataOf, hnk]
  refine .node ?_ ?_ ?_
  · rw [hb.rdata, hd]
    refine ⟨?_, rfl, (hop na hnk).symm⟩
    simp only [bodyKind, hok, hns]
  · rw [← hb.g0, hb.kids 0 hb.pos, List.length_map] at len
    exact len
  · intro i c d hc hd
    have hpar := (hb.wf.mem_iff _ _).1 (List.mem_of_getElem? hc)
    refine hb.alike c d (hb.wf.lt_of_parent _ _ hpar).1 ?_ (kids i _ d ?_ hd)
    · rintro rfl; rw [hb.root] at hpar; cases hpar
    · rw [← hb.g0, hb.kids 0 hb.pos, List.getElem?_map, hc]; rfl

theorem convertLoop_updates (B : Arena TData) (ins : List Nat) (C : Conv) (ops : List EditOp)
    (h : ∀ op ∈ ops, ∃ a b ch, op = .updateProps a b ch) :
    ∃ ps, convertLoop B ins C ops = .ok (C, ps) ∧ ps.length = ops.length ∧
      ∀ P ∈ ps, ∃ path ch, P = .updateProps path ch := by
  induction ops with
  | nil => exact ⟨[], rfl, rfl, by simp⟩
  | cons op ops ih =>
    obtain ⟨a, b, ch, rfl⟩ := h op (by simp)
    obtain ⟨ps, e, hl, hps⟩ := ih (fun op hop => h op (by simp [hop]))
    refine ⟨.updateProps (C.shadow.computePath a) (ch.map fun c => ⟨c.key, match c.value with
        | .same => none
        | .different v => some v⟩) :: ps, ?_, by simp [hl], ?_⟩
    · simp only [convertLoop, convertOp, bind, Except.bind, e]
      rfl
    · intro P hP
      rcases List.mem_cons.1 hP with rfl | hP
      · exact ⟨_, _, rfl⟩
      · exact hps P hP

theorem Bodies.diff_alike (h : Bodies old new ob nb)
    (hal : Arena.Alike NodeData.SameButAttrs old.arena new.arena ob nb)
    (hop : ∀ attrs, (new.arena.data nb).kind = .element "body".toList attrs → attrs.isOpaque = false) :
    ∃ ps, diff hashNode old new = .ok ps ∧ ps.length = (scriptOf hashNode (buildTree old ob)
        (diffable new) 0 nb (diffMatching (oldTree hashNode old ob) (newTree hashNode new nb))).length ∧
      ∀ P ∈ ps, ∃ path ch, P = .updateProps path ch := by
  obtain ⟨g, hb⟩ := buildTree_spec old h.old.arena.leafy ob
  have sn := h.new.arena
  have hBw : (diffable new).WF :=
    ⟨sn.wf.lt_of_parent, sn.wf.mem_iff, sn.wf.nodup, sn.wf.acyclic⟩
  have hT := h.alike hal hop hb
  have hops := fun op => script_alike (hashNode := hashNode) hb.wf hBw hb.pos hb.root hT op
  obtain ⟨S, hS, _⟩ := Shadow.new_init hb.wf hb.pos hb.root
  obtain ⟨ps, e, hl, hps⟩ := convertLoop_updates (diffable new)
    (insertedNodes (scriptOf hashNode (buildTree old ob) (diffable new) 0 nb
      (diffMatching (oldTree hashNode old ob) (newTree hashNode new nb))))
    ⟨S, initBToShadow (diffMatching (oldTree hashNode old ob) (newTree hashNode new nb))⟩ _ hops
  refine ⟨ps, ?_, hl, hps⟩
  have hnd : ((new.arena.descendants nb).any fun n =>
      decide ((new.arena.data n).kind = .document)) = false := by
    rw [List.any_eq_false]
    intro n hn
    have ha := (sn.wf.mem_descendants _ _).1 hn
    obtain ⟨_, na, hnk⟩ := Document.body_spec h.newBody
    have : (new.arena.data n).kind ≠ .document := by
      rcases ha.cases' with rfl | ⟨p, hp, _⟩
      · rw [hnk]; intro e; cases e
      · exact sn.nodoc n p hp
    simpa using this
  have hoc : opaqueChanges (oldTree hashNode old ob) (newTree hashNode new nb) new.arena
      (diffMatching (oldTree hashNode old ob) (newTree hashNode new nb)) = [] := by
    unfold opaqueChanges
    rw [List.filterMap_eq_nil_iff]
    intro p hp
    have hc := ((diffMatching_alike (hashNode := hashNode) hb.wf hBw hT).2 p.1 p.2).1 hp
    have := alike_hash (hashNode := hashNode) hb.wf hBw 0 nb (hc.alike hT)
    split
    · rfl
    · exact if_pos this
  unfold diff
  simp only [h.oldBody, h.newBody, hnd, Bool.false_eq_true, if_false, convertOps, hS, hoc, opaquePatches,
    List.isEmpty_nil, if_true, bind, Except.bind]
  simp only [scriptOf, oldTree, newTree] at e ⊢
  simp only [e, List.append_nil]

/-- **C38.** Two bodies that differ only in attributes (without making an element opaque or
non-opaque) give attribute updates only. The hash function is arbitrary. -/
theorem C38_attribute_changes_give_attribute_patches_partial (h : Bodies old new ob nb)
    (hal : Arena.Alike NodeData.SameButAttrs old.arena new.arena ob nb)
    (hop : ∀ attrs, (new.arena.data nb).kind = .element "body".toList attrs → attrs.isOpaque = false) :
    ∃ ps, diff hashNode old new = .ok ps ∧ ∀ P ∈ ps, ∃ path ch, P = .updateProps path ch := by
  obtain ⟨ps, e, _, hps⟩ := h.diff_alike (hashNode := hashNode) hal hop
  exact ⟨ps, e, hps⟩

/-- **C04.** Two documents with the same body content, whose body elements have no attributes, need no
patches. The hash function is arbitrary; opaque elements are allowed. -/
theorem C04_identical_documents_need_no_patches (h : Bodies old new ob nb)
    (hal : Arena.Alike NodeData.Same old.arena new.arena ob nb)
    (hob : (old.arena.data ob).kind = .element "body".toList []) :
    diff hashNode old new = .ok [] := by
  have hnk : (new.arena.data nb).kind = .element "body".toList [] := by
    cases hal with | node data _ _ => rw [← data.1, hob]
  obtain ⟨ps, e, hl, _⟩ := h.diff_alike (hashNode := hashNode)
    (hal.mono fun _ _ h => h.butAttrs) (by intro attrs e; rw [hnk] at e; cases e; rfl)
  obtain ⟨g, hb⟩ := buildTree_spec old h.old.arena.leafy ob
  have sn := h.new.arena
  have hBw : (diffable new).WF :=
    ⟨sn.wf.lt_of_parent, sn.wf.mem_iff, sn.wf.nodup, sn.wf.acyclic⟩
  have hT := h.alike (hal.mono fun _ _ h => h.butAttrs)
    (by intro attrs e; rw [hnk] at e; cases e; rfl) hb
  suffices hs : scriptOf hashNode (buildTree old ob) (diffable new) 0 nb
      (diffMatching (oldTree hashNode old ob) (newTree hashNode new nb)) = [] by
    rw [hs] at hl
    rw [e, List.length_eq_zero_iff.1 hl]
  rw [List.eq_nil_iff_forall_not_mem]
  intro op hop
  obtain ⟨a, b, ch, rfl⟩ := script_alike (hashNode := hashNode) hb.wf hBw hb.pos hb.root hT op hop
  have hcorr : ∀ a b, Corr (buildTree old ob) (diffable new) 0 nb a b →
      a < (buildTree old ob).next ∧ Arena.Alike NodeData.Same old.arena new.arena (g a) b := by
    intro a b hc
    induction hc with
    | root => exact ⟨hb.pos, by rw [hb.g0]; exact hal⟩
    | @child p q i a b _ _ ha hb' ih =>
      refine ⟨(hb.wf.lt_of_parent _ _ ((hb.wf.mem_iff _ _).1 (List.mem_of_getElem? ha))).1, ?_⟩
      cases ih.2 with
      | node _ _ kids =>
      refine kids i _ _ ?_ hb'
      rw [hb.kids p ih.1, List.getElem?_map, ha]; rfl
  have hpropsEq : ∀ a b, Corr (buildTree old ob) (diffable new) 0 nb a b →
      ((buildTree old ob).data a).props = ((diffable new).data b).props ∧
      ((diffable new).data b).props.Unique := by
    intro a b hc
    obtain ⟨h1, h2⟩ := hcorr a b hc
    cases h2 with
    | node data _ _ =>
    have hB : ((diffable new).data b).props.Unique := by
      show (tdataOf (new.arena.data b)).props.Unique
      cases ek : (new.arena.data b).kind with
      | element tag attrs =>
        simp only [tdataOf, ek]
        exact sn.uniq _ _ _ ek
      | _ => simp [tdataOf, ek, Attrs.Unique]
    refine ⟨?_, hB⟩
    by_cases h0 : a = 0
    · subst h0
      have hbn : (new.arena.data b).kind = .element "body".toList [] := by
        rw [← data.1, hb.g0, hob]
      rw [hb.rdata]
      show [] = (tdataOf (new.arena.data b)).props
      simp only [tdataOf, hbn]
    · rw [hb.data a h1 h0]
      show (tdataOf (old.arena.data (g a))).props = (tdataOf (new.arena.data b)).props
      simp only [tdataOf, data.1]
      split <;> rfl
  have hp : (a, b) ∈ (diffMatching (oldTree hashNode old ob) (newTree hashNode new nb)).pairs := by
    obtain ⟨p, h1, h2, h3, h | h⟩ := mem_updateOps.1 ((mem_script_phase hop).2.2.2 rfl)
    · unfold textOps at h
      split at h
      · cases h
      · split at h
        · simp at h
        · cases h
    · rw [Plan.propOps_eq] at h
      split at h
      · simp only [List.mem_singleton, EditOp.updateProps.injEq] at h
        rw [h.1, h.2.1]; exact h1
      · cases h
  have hc := ((diffMatching_alike (hashNode := hashNode) hb.wf hBw hT).2 a b).1 hp
  obtain ⟨e1, e2⟩ := hpropsEq a b hc
  rw [C13_prop_updates_exactly_when_needed hb.wf hBw _ _ _ (e1 ▸ e2) e2] at hop
  exact hop.2.2.2.1 e1

theorem Arena.WF.alike_refl {α : Type} {R : α → α → Prop} (hR : ∀ d, R d d) {A : Arena α} (h : A.WF)
    (n : Nat) : Arena.Alike R A A n n := by
  refine h.induct_down (P := fun n => Arena.Alike R A A n n) ?_ n
  intro n ih
  refine .node (hR _) rfl ?_
  intro i c d hc hd
  rw [hc] at hd; cases hd
  exact ih c (List.mem_of_getElem? hc)

/-- **C04**, for a document and itself. -/
theorem C04_no_patches_to_itself {D : Document} {b : Nat} (h : D.Sound) (hb : D.body = some b)
    (hk : (D.arena.data b).kind = .element "body".toList []) : diff hashNode D D = .ok [] :=
  C04_identical_documents_need_no_patches ⟨h, h, hb, hb⟩
    (h.arena.wf.alike_refl (fun _ => ⟨rfl, fun _ => rfl⟩) b) hk

/-- **C04**, for documents without body. -/
theorem C04_no_bodies {D E : Document} (hD : D.body = none) (hE : E.body = none) :
    diff hashNode D E = .ok [] := by
  unfold diff
  rw [hD, hE]

/-- Checker for `Arena.Alike`, with a depth limit. -/
def alikeB {α β : Type} (R : α → β → Bool) (A : Arena α) (B : Arena β) : Nat → Nat → Nat → Bool
  | 0, _, _ => false
  | k + 1, n, m => R (A.data n) (B.data m) && (A.children n).length == (B.children m).length &&
    ((A.children n).zip (B.children m)).all fun p => alikeB R A B k p.1 p.2

theorem alike_of_alikeB {α β : Type} {R : α → β → Bool} {R' : α → β → Prop}
    (hR : ∀ d e, R d e = true → R' d e) {A : Arena α} {B : Arena β} {k n m : Nat}
    (h : alikeB R A B k n m = true) : Arena.Alike R' A B n m := by
  induction k generalizing n m with
  | zero => cases h
  | succ k ih =>
    simp only [alikeB, Bool.and_eq_true, beq_iff_eq, List.all_eq_true] at h
    refine .node (hR _ _ h.1.1) h.1.2 ?_
    intro i c d hc hd
    exact ih (h.2 (c, d) (List.mem_of_getElem? (i := i) (List.getElem?_zip_eq_some.2 ⟨hc, hd⟩)))

/-- Checker for `NodeData.SameButAttrs`. -/
def sameButAttrsB (d e : NodeData) : Bool :=
  match d.kind, e.kind with
  | .element t a, .element t' a' => t == t' && decide (d.ns = e.ns) && a.marked == a'.marked
  | .text s, .text s' => s == s'
  | .comment s, .comment s' => s == s'
  | _, _ => false

theorem sameButAttrsB_spec (d e : NodeData) (h : sameButAttrsB d e = true) : d.SameButAttrs e := by
  obtain ⟨k, ns⟩ := d
  obtain ⟨k', ns'⟩ := e
  cases k <;> cases k' <;> simp [sameButAttrsB] at h
  · obtain ⟨⟨rfl, rfl⟩, h⟩ := h
    exact .inr ⟨_, _, _, rfl, rfl, rfl, h⟩
  · subst h; exact .inl ⟨rfl, fun _ _ e => by cases e⟩
  · subst h; exact .inl ⟨rfl, fun _ _ e => by cases e⟩

/-- Content with an opaque element. -/
def attr1 : List Html :=
  [ex "ul" [("class", "a")] [ex "li" [] [.text "one".toList], ex "li" [("id", "x")] [.comment "c".toList]],
    ex "d" [("data-hotmeal-opaque", "")] [ex "b" [("x", "1")] []]]
/-- The same content with other attributes. -/
def attr2 : List Html :=
  [ex "ul" [] [ex "li" [("k", "v")] [.text "one".toList], ex "li" [("id", "y")] [.comment "c".toList]],
    ex "d" [("data-hotmeal-opaque", "1"), ("e", "")] [ex "b" [] []]]

/-- The hypotheses of C38 hold for `attr1` and `attr2`, which need four patches. -/
example : Bodies (.ofForest attr1) (.ofForest attr2) 2 2 ∧
    Arena.Alike NodeData.SameButAttrs (Document.ofForest attr1).arena (Document.ofForest attr2).arena 2 2 ∧
    (match diff Shape.node (.ofForest attr1) (.ofForest attr2) with
      | .ok ps => decide (ps.length = 4)
      | .error _ => false) = true := by
  have h1 := ofForest_valid attr1 (by decide +kernel)
  have h2 := ofForest_valid attr2 (by decide +kernel)
  exact ⟨⟨⟨h1, by decide +kernel⟩, ⟨h2, by decide +kernel⟩, by decide +kernel, by decide +kernel⟩, alike_of_alikeB (k := 5) sameButAttrsB_spec (by decide +kernel),
    by decide +kernel⟩

/-- **C38** is violated when an opaque element becomes an ordinary one: its content is inserted again. -/
theorem C38_violated : ∃ cs ds : List Html,
    Arena.Alike (fun d e => d.kind = e.kind ∨ ∃ tag a a', d.kind = .element tag a ∧ e.kind = .element tag a')
      (Document.ofForest cs).arena (Document.ofForest ds).arena 2 2 ∧
    (match diff Shape.node (.ofForest cs) (.ofForest ds) with
      | .ok ps => ps.any fun
        | .insertElement .. => true
        | _ => false
      | .error _ => false) = true := by
  refine ⟨[ex "d" [("data-hotmeal-opaque", "")] [ex "b" [] []]], [ex "d" [] [ex "b" [] []]],
    alike_of_alikeB (k := 5) (R := fun d e => match d.kind, e.kind with
      | .element t _, .element t' _ => t == t'
      | _, _ => false) ?_ (by decide +kernel), by decide +kernel⟩
  rintro ⟨k, ns⟩ ⟨k', ns'⟩ h
  cases k <;> cases k' <;> simp at h
  subst h
  exact .inr ⟨_, _, _, rfl, rfl⟩

end Hotmeal
