import Verif.Lemmas.Widgets
import Verif.Props.Live
import Verif.Props.Unique

set_option autoImplicit false
set_option linter.unusedSectionVars false

/-!
# Pages that show a document except for the content of opaque elements
-/

namespace Hotmeal

/-- The node is an element with the attribute `data-hotmeal-opaque`. -/
def NodeData.isOpaque (d : NodeData) : Bool :=
  match d.kind with
  | .element _ attrs => attrs.marked
  | _ => false

theorem NodeData.isOpaque_eq (d : NodeData) : (tdataOf d).props.isOpaque = d.isOpaque := by
  unfold NodeData.isOpaque
  cases hk : d.kind <;> simp only [tdataOf, hk] <;> rfl

theorem diffable_isOpaque (D : Document) (n : Nat) :
    ((diffable D).data n).props.isOpaque = (D.arena.data n).isOpaque := NodeData.isOpaque_eq _

/-- Two elements with the same tag and the same attributes, as they are written, or two equal texts or
comments. -/
def NodeKind.Looks (k k' : NodeKind) : Prop :=
  match k, k' with
  | .element tag attrs, .element tag' attrs' => tag = tag' ∧ attrs.written = attrs'.written
  | .element _ _, _ => False
  | k, k' => k = k'

theorem KindSim.looks {N : QualName → Prop} {k k' : NodeKind} (h : KindSim N k k') : k'.Looks k := by
  cases k with
  | element t a =>
    obtain ⟨a', rfl, e, _⟩ := h
    exact ⟨rfl, e⟩
  | text s => cases (show k' = _ from h); rfl
  | comment s => cases (show k' = _ from h); rfl
  | document => cases (show k' = _ from h); rfl

theorem NodeKind.Looks.symm {k k' : NodeKind} (h : k.Looks k') : k'.Looks k := by
  cases k <;> cases k' <;> simp only [NodeKind.Looks] at h ⊢ <;> grind

theorem NodeKind.Looks.trans {k k' k'' : NodeKind} (h : k.Looks k') (h' : k'.Looks k'') : k.Looks k'' := by
  cases k <;> cases k' <;> cases k'' <;> simp only [NodeKind.Looks] at h h' ⊢ <;> grind

/-- `E` at `e` shows what `A` has at `a`, apart from the content of opaque elements, and with surplus empty
texts at the end of elements. -/
inductive Shows (A E : Arena NodeData) : Nat → Nat → Prop
  | node {a e : Nat} (data : (E.data e).kind.Looks (A.data a).kind)
      (len : (A.data a).isOpaque = false → (A.children a).length ≤ (E.children e).length)
      (rest : (A.data a).isOpaque = false → ∀ j ∈ (E.children e).drop (A.children a).length,
        (E.data j).kind = .text [])
      (kids : (A.data a).isOpaque = false → ∀ (i c d : Nat), (A.children a)[i]? = some c →
        (E.children e)[i]? = some d → Shows A E c d) : Shows A E a e

/-- `E` has at `e` the node that `A` has at `a`, which is not inside an opaque element. -/
inductive Spot (A E : Arena NodeData) (ra re : Nat) : Nat → Nat → Prop
  | root : Spot A E ra re ra re
  | child {p q i a b : Nat} (h : Spot A E ra re p q) (ho : (A.data p).isOpaque = false)
      (ha : (A.children p)[i]? = some a) (hb : (E.children q)[i]? = some b) : Spot A E ra re a b

namespace Spot

variable {A E : Arena NodeData} {ra re a e : Nat}

theorem ancA (hA : A.WF) (h : Spot A E ra re a e) : A.Anc ra a := by
  induction h with
  | root => exact .refl
  | child _ _ ha _ ih => exact .step ((hA.mem_iff _ _).1 (List.mem_of_getElem? ha)) ih

theorem ancE (hE : E.WF) (h : Spot A E ra re a e) : E.Anc re e := by
  induction h with
  | root => exact .refl
  | child _ _ _ hb ih => exact .step ((hE.mem_iff _ _).1 (List.mem_of_getElem? hb)) ih

theorem inv (h : Spot A E ra re a e) : (a = ra ∧ e = re) ∨ ∃ p q i : Nat, Spot A E ra re p q ∧
    (A.data p).isOpaque = false ∧ (A.children p)[i]? = some a ∧ (E.children q)[i]? = some e := by
  cases h with
  | root => exact .inl ⟨rfl, rfl⟩
  | child h ho ha hb => exact .inr ⟨_, _, _, h, ho, ha, hb⟩

theorem fn (hA : A.WF) (h : Spot A E ra re a e) : ∀ e', Spot A E ra re a e' → e = e' := by
  induction h with
  | root =>
    intro e' h'
    rcases h'.inv with ⟨_, h2⟩ | ⟨p, q, i, h1, _, h3, _⟩
    · exact h2.symm
    · exact absurd (h1.ancA hA) (not_anc_parent hA ((hA.mem_iff _ _).1 (List.mem_of_getElem? h3)))
  | @child p q i a b h ho ha hb ih =>
    intro e' h'
    have hp := (hA.mem_iff _ _).1 (List.mem_of_getElem? ha)
    rcases h'.inv with ⟨h1, _⟩ | ⟨p', q', i', h1, _, h3, h4⟩
    · subst h1
      exact absurd (h.ancA hA) (not_anc_parent hA hp)
    · have hp' := (hA.mem_iff _ _).1 (List.mem_of_getElem? h3)
      rw [hp] at hp'
      cases hp'
      have := ih q' h1
      subst this
      have := List.nodup_getElem?_inj (hA.nodup _) ha h3
      subst this
      rw [hb] at h4
      exact Option.some.inj h4

theorem inj (hE : E.WF) (h : Spot A E ra re a e) : ∀ a', Spot A E ra re a' e → a = a' := by
  induction h with
  | root =>
    intro a' h'
    rcases h'.inv with ⟨h2, _⟩ | ⟨p, q, i, h1, _, _, h3⟩
    · exact h2.symm
    · exact absurd (h1.ancE hE) (not_anc_parent hE ((hE.mem_iff _ _).1 (List.mem_of_getElem? h3)))
  | @child p q i a b h ho ha hb ih =>
    intro a' h'
    have hp := (hE.mem_iff _ _).1 (List.mem_of_getElem? hb)
    rcases h'.inv with ⟨_, h1⟩ | ⟨p', q', i', h1, _, h3, h4⟩
    · subst h1
      exact absurd (h.ancE hE) (not_anc_parent hE hp)
    · have hp' := (hE.mem_iff _ _).1 (List.mem_of_getElem? h4)
      rw [hp] at hp'
      cases hp'
      have := ih p' h1
      subst this
      have := List.nodup_getElem?_inj (hE.nodup _) hb h4
      subst this
      rw [ha] at h3
      exact Option.some.inj h3

end Spot

/-- The node `n` of the page is inside an opaque element. -/
def InWidget (A E : Arena NodeData) (ra re n : Nat) : Prop :=
  ∃ x u, Spot A E ra re x u ∧ (A.data x).isOpaque = true ∧ E.Anc u n ∧ n ≠ u

/-- The attributes are, as they are written, pairwise different attributes with names in `N`. -/
def Attrs.Written (N : QualName → Prop) (attrs : Attrs) : Prop :=
  ∃ a : Attrs, attrs.written = a.written ∧ (∀ kv ∈ a, N kv.1) ∧ a.keys.Nodup

/-- The element `eb` of the page shows the body `b` of the document, except that scripts may have put anything
inside opaque elements. There may be surplus empty texts. The element may have attributes of its own. -/
structure Staged (N : QualName → Prop) (D : Document) (b : Nat) (E : Arena NodeData) (eb : Nat) : Prop where
  wf : E.WF
  lt : eb < E.next
  leaf : ∀ n s, E.Anc eb n → (E.data n).kind = .text s → E.children n = []
  elem : (E.data eb).kind.IsElement
  names : ∀ n tag attrs, (n = eb ∨ InWidget D.arena E b eb n) → (E.data n).kind = .element tag attrs →
    attrs.Written N
  len : (D.arena.children b).length ≤ (E.children eb).length
  rest : ∀ j ∈ (E.children eb).drop (D.arena.children b).length, (E.data j).kind = .text []
  kids : ∀ i c d : Nat, (D.arena.children b)[i]? = some c → (E.children eb)[i]? = some d → Shows D.arena E c d

namespace Staged

variable {N : QualName → Prop} {D : Document} {b : Nat} {E : Arena NodeData} {eb : Nat}

theorem at_spot (h : Staged N D b E eb) {a e : Nat} (hs : Spot D.arena E b eb a e) :
    (a ≠ b → (E.data e).kind.Looks (D.arena.data a).kind) ∧ ((D.arena.data a).isOpaque = false →
      (D.arena.children a).length ≤ (E.children e).length ∧
      (∀ j ∈ (E.children e).drop (D.arena.children a).length, (E.data j).kind = .text []) ∧
      ∀ i c d : Nat, (D.arena.children a)[i]? = some c → (E.children e)[i]? = some d → Shows D.arena E c d) := by
  suffices hk : ∀ a e, Spot D.arena E b eb a e → (a = b ∧ e = eb) ∨ Shows D.arena E a e by
    rcases hk a e hs with ⟨rfl, rfl⟩ | hk
    · exact ⟨fun e => absurd rfl e, fun _ => ⟨h.len, h.rest, h.kids⟩⟩
    · cases hk with
      | node data len rest kids => exact ⟨fun _ => data, fun ho => ⟨len ho, rest ho, kids ho⟩⟩
  intro a e hs
  induction hs with
  | root => exact .inl ⟨rfl, rfl⟩
  | child _ ho ha hb ih =>
    right
    rcases ih with ⟨rfl, rfl⟩ | ih
    · exact h.kids _ _ _ ha hb
    · cases ih with
      | node data len rest kids => exact kids ho _ _ _ ha hb

theorem spot (h : Staged N D b E eb) (hD : D.arena.WF) {a : Nat} (ha : D.arena.Anc b a)
    (hi : ¬ InsideOpaque (diffable D) b a) : ∃ e, Spot D.arena E b eb a e := by
  induction ha with
  | refl => exact ⟨eb, .root⟩
  | @step a p hp ha ih =>
    have hwd : (diffable D).WF := Built.diffable_wf hD
    have hpi := (not_congr (InsideOpaque.parent_iff (A := diffable D) hwd hp (diffable_anc ha))).1 hi
    rw [not_or] at hpi
    obtain ⟨e, he⟩ := ih hpi.1
    have hop : (D.arena.data p).isOpaque = false := by
      rw [← diffable_isOpaque]; simpa using hpi.2
    obtain ⟨i, hidx⟩ := List.mem_iff_getElem?.1 ((hD.mem_iff _ _).2 hp)
    have hl := ((h.at_spot he).2 hop).1
    have hlt := (List.getElem?_eq_some_iff.1 hidx).1
    exact ⟨_, .child he hop hidx (List.getElem?_eq_getElem (by omega))⟩

/-- What there is on the page. -/
theorem cases_below (h : Staged N D b E eb) (hD : D.arena.WF) {n : Nat} (hn : E.Anc eb n) :
    (∃ a, Spot D.arena E b eb a n) ∨ InWidget D.arena E b eb n ∨ (E.data n).kind = .text [] := by
  induction hn with
  | refl => exact .inl ⟨b, .root⟩
  | @step n p hp hap ih =>
    have hm := (h.wf.mem_iff _ _).2 hp
    rcases ih with ⟨a, ha⟩ | ⟨x, u, h1, h2, h3, _⟩ | ht
    · cases ho : (D.arena.data a).isOpaque with
      | true =>
        refine .inr (.inl ⟨a, p, ha, ho, .step hp .refl, ?_⟩)
        rintro rfl
        exact not_anc_parent h.wf hp .refl
      | false =>
        obtain ⟨_, hk⟩ := h.at_spot ha
        obtain ⟨k1, k2, _⟩ := hk ho
        obtain ⟨i, hi⟩ := List.mem_iff_getElem?.1 hm
        by_cases hlt : i < (D.arena.children a).length
        · exact .inl ⟨_, .child ha ho (List.getElem?_eq_getElem hlt) hi⟩
        · refine .inr (.inr (k2 n (List.mem_of_getElem? (i := i - (D.arena.children a).length) ?_)))
          rw [List.getElem?_drop, show (D.arena.children a).length + (i - (D.arena.children a).length) = i by omega]
          exact hi
    · refine .inr (.inl ⟨x, u, h1, h2, .step hp h3, ?_⟩)
      rintro rfl
      exact not_anc_parent h.wf hp h3
    · rw [h.leaf p [] hap ht] at hm
      cases hm

/-- A widget is not a node of the document. -/
theorem not_spot (h : Staged N D b E eb) {n : Nat} (hn : InWidget D.arena E b eb n) :
    ¬ ∃ a, Spot D.arena E b eb a n := by
  rintro ⟨a, ha⟩
  obtain ⟨x, u, h1, h2, h3, h4⟩ := hn
  -- going up from `a` one meets `x`
  have key : ∀ a n, Spot D.arena E b eb a n → E.Anc u n → n = u := by
    intro a n ha
    induction ha with
    | root =>
      intro h3
      exact h.wf.anc_antisymm (h1.ancE h.wf) h3
    | @child p q i a' b' hpq ho hia hib ih =>
      intro h3
      rcases h3.cases' with e | ⟨q', hq', h5⟩
      · exact e.symm
      · have hq := (h.wf.mem_iff _ _).1 (List.mem_of_getElem? hib)
        rw [hq] at hq'
        cases hq'
        have := ih h5
        subst this
        have := hpq.inj h.wf x h1
        subst this
        rw [ho] at h2
        cases h2
  exact h4 (key a n ha h3)

open Classical in
/-- The page with the data of the document in place of its own, where it shows the document. -/
noncomputable def virtual (N : QualName → Prop) (D : Document) (b : Nat) (E : Arena NodeData) (eb : Nat) :
    Arena NodeData :=
  { E with data := fun n =>
      if h : ∃ a, Spot D.arena E b eb a n ∧ a ≠ b then D.arena.data h.choose
      else if h : ∃ k, E.Anc eb n ∧ KindSim N k (E.data n).kind then ⟨h.choose, (E.data n).ns⟩
      else ⟨.document, (E.data n).ns⟩ }

open Classical in
/-- Where the nodes of the document are on the page. -/
noncomputable def where_ (D : Document) (b : Nat) (E : Arena NodeData) (eb : Nat) (a : Nat) : Nat :=
  if h : ∃ e, Spot D.arena E b eb a e then h.choose else 0

theorem where_eq (hD : D.arena.WF) {a e : Nat} (hs : Spot D.arena E b eb a e) : where_ D b E eb a = e := by
  unfold where_
  have hx : ∃ e, Spot D.arena E b eb a e := ⟨e, hs⟩
  rw [dif_pos hx]
  exact hx.choose_spec.fn hD e hs

theorem virtual_wf (hE : E.WF) : (virtual N D b E eb).WF :=
  ⟨hE.lt_of_parent, hE.mem_iff, hE.nodup, hE.acyclic⟩

theorem virtual_anc {a n : Nat} : (virtual N D b E eb).Anc a n ↔ E.Anc a n := by
  constructor
  · intro h
    induction h with
    | refl => exact .refl
    | step hp _ ih => exact .step hp ih
  · intro h
    induction h with
    | refl => exact .refl
    | step hp _ ih => exact .step hp ih

open Classical in
theorem virtual_spot (hE : E.WF) {a e : Nat} (hs : Spot D.arena E b eb a e) (ha : a ≠ b) :
    (virtual N D b E eb).data e = D.arena.data a := by
  have hx : ∃ a, Spot D.arena E b eb a e ∧ a ≠ b := ⟨a, hs, ha⟩
  show (if h : ∃ a, Spot D.arena E b eb a e ∧ a ≠ b then D.arena.data h.choose else _) = _
  rw [dif_pos hx, hx.choose_spec.1.inj hE a hs]

/-- Every node of the page has a kind with names in `N`. -/
theorem sim (h : Staged N D b E eb) (hD : D.arena.WF) {n : Nat} (hn : E.Anc eb n)
    (hs : ¬ ∃ a, Spot D.arena E b eb a n ∧ a ≠ b) : ∃ k, KindSim N k (E.data n).kind := by
  have hw : (n = eb ∨ InWidget D.arena E b eb n) ∨ (E.data n).kind = .text [] := by
    rcases h.cases_below hD hn with ⟨a, ha⟩ | hw | ht
    · have : a = b := Classical.byContradiction fun e => hs ⟨a, ha, e⟩
      subst this
      exact .inl (.inl (ha.fn hD _ .root))
    · exact .inl (.inr hw)
    · exact .inr ht
  rcases hw with hw | hw
  · cases hk : (E.data n).kind with
    | element tag attrs =>
      obtain ⟨a, h1, h2, h3⟩ := h.names n tag attrs hw hk
      exact ⟨.element tag a, attrs, rfl, h1, h2, h3⟩
    | text s => exact ⟨.text s, rfl⟩
    | comment s => exact ⟨.comment s, rfl⟩
    | document => exact ⟨.document, rfl⟩
  · rw [hw]
    exact ⟨.text [], rfl⟩

theorem virtual_sim (h : Staged N D b E eb) (hD : D.Sound) (hN : D.NamesIn N b) {n : Nat} (hn : E.Anc eb n) :
    DataSim N ((virtual N D b E eb).data n) (E.data n) := by
  have hw := hD.arena.wf
  by_cases hs : ∃ a, Spot D.arena E b eb a n ∧ a ≠ b
  · obtain ⟨a, ha, hab⟩ := hs
    rw [virtual_spot h.wf ha hab]
    have hl := (h.at_spot ha).1 hab
    unfold DataSim
    cases hk : (D.arena.data a).kind with
    | element tag attrs =>
      rw [hk] at hl
      cases hk' : (E.data n).kind with
      | element tag' attrs' =>
        rw [hk'] at hl
        obtain ⟨rfl, hl⟩ := hl
        exact ⟨attrs', rfl, hl, hN a tag' attrs (ha.ancA hw) hk, hD.arena.uniq a tag' attrs hk⟩
      | _ => rw [hk'] at hl; cases hl
    | text s => rw [hk] at hl; cases hk' : (E.data n).kind <;> rw [hk'] at hl <;> first | exact hl | cases hl
    | comment s => rw [hk] at hl; cases hk' : (E.data n).kind <;> rw [hk'] at hl <;> first | exact hl | cases hl
    | document => rw [hk] at hl; cases hk' : (E.data n).kind <;> rw [hk'] at hl <;> first | exact hl | cases hl
  · obtain ⟨k, hk⟩ := h.sim hw hn hs
    have hx : ∃ k, E.Anc eb n ∧ KindSim N k (E.data n).kind := ⟨k, hn, hk⟩
    unfold DataSim virtual
    simp only
    rw [dif_neg hs, dif_pos hx]
    exact hx.choose_spec.2

theorem virtual_text (h : Staged N D b E eb) (hD : D.Sound) (hN : D.NamesIn N b) {n : Nat} {s : Str}
    (ht : ((virtual N D b E eb).data n).kind = .text s) : (virtual N D b E eb).children n = [] := by
  have hw := hD.arena.wf
  have hn : E.Anc eb n := by
    apply Classical.byContradiction
    intro hn
    unfold virtual at ht
    simp only at ht
    rw [dif_neg, dif_neg] at ht
    · cases ht
    · rintro ⟨_, h1, _⟩; exact hn h1
    · rintro ⟨a, h1, _⟩; exact hn (h1.ancE h.wf)
  have hs := h.virtual_sim hD hN hn
  unfold DataSim at hs
  rw [ht] at hs
  exact h.leaf n s hn hs

open Classical in
/-- The virtual page mirrors the document. -/
theorem mirror (h : Staged N D b E eb) (hD : D.Sound) (hN : D.NamesIn N b)
    (hnd : ∀ n, D.arena.Anc b n → (D.arena.data n).kind ≠ .document) :
    Mirror (diffable D) b (virtual N D b E eb) eb ((virtual N D b E eb).data eb).kind
      (fun n => if ((diffable D).data n).props.isOpaque = true then
        some ((virtual N D b E eb).forest (where_ D b E eb n)) else none) (where_ D b E eb) where
  wf := virtual_wf h.wf
  db_lt := h.lt
  root := where_eq hD.arena.wf .root
  rootK := rfl
  kids := by
    intro a ha hi hb
    have hop : (D.arena.data a).isOpaque = false := by
      rw [← diffable_isOpaque]
      cases e : ((diffable D).data a).props.isOpaque with
      | false => rfl
      | true => rw [if_pos e] at hb; cases hb
    obtain ⟨e, he⟩ := h.spot hD.arena.wf (anc_of_diffable ha) hi
    obtain ⟨k1, k2, k3⟩ := (h.at_spot he).2 hop
    rw [where_eq hD.arena.wf he]
    refine ⟨(E.children e).drop (D.arena.children a).length, ?_, fun j hj => ?_⟩
    · show E.children e = (D.arena.children a).map (where_ D b E eb) ++ _
      conv => lhs; rw [← List.take_append_drop (D.arena.children a).length (E.children e)]
      congr 1
      apply List.ext_getElem?
      intro i
      rw [List.getElem?_map]
      by_cases hi' : i < (D.arena.children a).length
      · rw [List.getElem?_take_of_lt hi', List.getElem?_eq_getElem hi', List.getElem?_eq_getElem (by omega)]
        simp only [Option.map_some, Option.some.injEq]
        exact (where_eq hD.arena.wf (.child he hop (List.getElem?_eq_getElem hi')
          (List.getElem?_eq_getElem (by omega)))).symm
      · rw [List.getElem?_eq_none (by rw [List.length_take]; omega), List.getElem?_eq_none (by omega)]
        rfl
    · have hj' := k2 j hj
      have hje : E.Anc eb j := .step ((h.wf.mem_iff _ _).1 (List.mem_of_mem_drop hj)) (he.ancE h.wf)
      have := h.virtual_sim hD hN hje
      unfold DataSim at this
      rw [hj'] at this
      cases hk : ((virtual N D b E eb).data j).kind with
      | element t a => rw [hk] at this; obtain ⟨_, e, _⟩ := this; cases e
      | text s => rw [hk] at this; cases (show NodeKind.text [] = .text s from this); rfl
      | comment s => rw [hk] at this; cases (show NodeKind.text [] = .comment s from this)
      | document => rw [hk] at this; cases (show NodeKind.text [] = .document from this)
  opq := by
    intro a c ha hi hb
    split at hb
    · exact Option.some.inj hb
    · cases hb
  data := by
    intro a ha hi hne
    obtain ⟨e, he⟩ := h.spot hD.arena.wf (anc_of_diffable ha) hi
    rw [where_eq hD.arena.wf he, virtual_spot h.wf he hne]
    exact (kindOf_tdataOf (hnd a (anc_of_diffable ha))).symm
  leaf := fun n s ht => h.virtual_text hD hN ht

theorem agree (h : Staged N D b E eb) (hD : D.Sound) (hN : D.NamesIn N b) :
    Agree N eb eb id (E.Anc eb) (virtual N D b E eb) (Arena.upd (fun _ => none) 0 (some eb)) E (fun _ => none) where
  dwf := virtual_wf h.wf
  ewf := h.wf
  lt := by
    intro n hn
    rcases hn.cases' with rfl | ⟨p, hp, _⟩
    · exact h.lt
    · exact (h.wf.lt_of_parent _ _ hp).1
  elt := by
    intro n hn
    rcases hn.cases' with rfl | ⟨p, hp, _⟩
    · exact h.lt
    · exact (h.wf.lt_of_parent _ _ hp).1
  inj := fun n m _ _ e => e
  kids := fun n _ => (List.map_id _).symm
  down := fun n m hn hm => .step ((h.wf.mem_iff _ _).1 hm) hn
  data := fun n hn => h.virtual_sim hD hN hn
  free := fun n _ e => e
  rootL := .refl
  rootE := rfl
  s0 := by simp
  slots := by
    intro k n hk e
    rw [Arena.upd_ne _ _ hk] at e; cases e

end Staged
end Hotmeal

namespace Hotmeal

theorem Spot.not_inside {D : Document} {E : Arena NodeData} {b eb a e : Nat} (hD : D.arena.WF)
    (h : Spot D.arena E b eb a e) : ¬ InsideOpaque (diffable D) b a := by
  have hwd : (diffable D).WF := Built.diffable_wf hD
  induction h with
  | root =>
    rintro ⟨o, h1, _, h3, h4⟩
    exact h4 (hwd.anc_antisymm h1 h3)
  | @child p q i a' b' h ho ha _ ih =>
    have hp := (hD.mem_iff _ _).1 (List.mem_of_getElem? ha)
    rw [InsideOpaque.parent_iff (A := diffable D) hwd hp (diffable_anc (h.ancA hD)), diffable_isOpaque, ho]
    simpa using ih

theorem KindSim.written {N : QualName → Prop} {k : NodeKind} {tag : Str} {attrs : Attrs}
    (h : KindSim N k (.element tag attrs)) : attrs.Written N := by
  cases k with
  | element t a =>
    obtain ⟨a', e, h1, h2, h3⟩ := h
    cases e
    exact ⟨a, h1, h2, h3⟩
  | text s => cases (show NodeKind.element tag attrs = .text s from h)
  | comment s => cases (show NodeKind.element tag attrs = .comment s from h)
  | document => cases (show NodeKind.element tag attrs = .document from h)

theorem KindSim.text_inv {N : QualName → Prop} {k : NodeKind} {s : Str} (h : KindSim N k (.text s)) :
    k = .text s := by
  cases k with
  | element t a => obtain ⟨a', e, _⟩ := h; cases e
  | text s' => cases (show NodeKind.text s = .text s' from h); rfl
  | comment s' => cases (show NodeKind.text s = .comment s' from h)
  | document => cases (show NodeKind.text s = .document from h)

/-- Everything below the root on the page is a copy. -/
theorem Agree.below {N : QualName → Prop} {root eb : Nat} {φ : Nat → Nat} {L : Nat → Prop} {D E : Arena NodeData}
    {s t : Slots} (h : Agree N root eb φ L D s E t) {n : Nat} (hn : E.Anc eb n) : ∃ m, L m ∧ φ m = n := by
  induction hn with
  | refl => exact ⟨root, h.rootL, h.rootE⟩
  | @step n p hp _ ih =>
    obtain ⟨q, hq, rfl⟩ := ih
    have hm := (h.ewf.mem_iff _ _).2 hp
    rw [h.kids q hq, List.mem_map] at hm
    obtain ⟨m, h1, h2⟩ := hm
    exact ⟨m, h.down _ _ hq h1, h2⟩

section
variable {N : QualName → Prop} {new : Document} {nb db eb : Nat} {D E : Arena NodeData} {k0 : NodeKind}
  {body : Nat → Option (List Html)} {g φ : Nat → Nat} {L : Nat → Prop} {s t : Slots}

/-- The children of a node of the page. -/
theorem Mirror.kids_page (hm : Mirror (diffable new) nb D db k0 body g) (hA : Agree N db eb φ L D s E t)
    (hbody : ∀ b, new.arena.Anc nb b → ((diffable new).data b).props.isOpaque = false → body b = none) {b : Nat}
    (hb : new.arena.Anc nb b) (hi : ¬ InsideOpaque (diffable new) nb b) (hL : L (g b))
    (ho : (new.arena.data b).isOpaque = false) :
    (new.arena.children b).length ≤ (E.children (φ (g b))).length ∧
    (∀ j ∈ (E.children (φ (g b))).drop (new.arena.children b).length, (E.data j).kind = .text []) ∧
    (∀ i c d : Nat, (new.arena.children b)[i]? = some c → (E.children (φ (g b)))[i]? = some d →
      d = φ (g c) ∧ L (g c)) := by
  obtain ⟨junk, hk, hj⟩ := hm.kids b (diffable_anc hb) hi (hbody b hb (by rw [diffable_isOpaque]; exact ho))
  have hk' : D.children (g b) = (new.arena.children b).map g ++ junk := hk
  have he := hA.kids _ hL
  rw [hk', List.map_append, List.map_map] at he
  rw [he]
  refine ⟨by simp, ?_, ?_⟩
  · intro j hj'
    rw [List.drop_left' (by simp)] at hj'
    obtain ⟨j', h1, rfl⟩ := List.mem_map.1 hj'
    have hLj : L j' := hA.down _ _ hL (by rw [hk']; simp [h1])
    have := hA.data j' hLj
    unfold DataSim at this
    rw [hj j' h1] at this
    exact this
  · intro i c d hc hd
    have hlt := (List.getElem?_eq_some_iff.1 hc).1
    rw [List.getElem?_append_left (by simpa using hlt), List.getElem?_map, hc] at hd
    refine ⟨(Option.some.inj hd).symm, hA.down _ _ hL ?_⟩
    rw [hk']
    exact List.mem_append_left _ (List.mem_map_of_mem (List.mem_of_getElem? hc))

theorem Mirror.spot (hm : Mirror (diffable new) nb D db k0 body g) (hA : Agree N db eb φ L D s E t)
    (hbody : ∀ b, new.arena.Anc nb b → ((diffable new).data b).props.isOpaque = false → body b = none) (hw : new.arena.WF) {b : Nat}
    (hb : new.arena.Anc nb b) (hi : ¬ InsideOpaque (diffable new) nb b) :
    L (g b) ∧ Spot new.arena E nb eb b (φ (g b)) := by
  induction hb with
  | refl => rw [hm.root, hA.rootE]; exact ⟨hA.rootL, .root⟩
  | @step b p hp hap ih =>
    have hwd : (diffable new).WF := Built.diffable_wf hw
    have hpi := (not_congr (InsideOpaque.parent_iff (A := diffable new) hwd hp (diffable_anc hap))).1 hi
    rw [not_or] at hpi
    obtain ⟨i1, i2⟩ := ih hpi.1
    have hop : (new.arena.data p).isOpaque = false := by
      rw [← diffable_isOpaque]; simpa using hpi.2
    obtain ⟨i, hidx⟩ := List.mem_iff_getElem?.1 ((hw.mem_iff _ _).2 hp)
    obtain ⟨k1, _, k3⟩ := hm.kids_page hA hbody hap hpi.1 i1 hop
    have hlt := (List.getElem?_eq_some_iff.1 hidx).1
    have hd := List.getElem?_eq_getElem (Nat.lt_of_lt_of_le hlt k1)
    obtain ⟨e1, e2⟩ := k3 i b _ hidx hd
    rw [e1] at hd
    exact ⟨e2, .child i2 hop hidx hd⟩

/-- A page that is a copy of a mirror of the new document shows the new document. -/
theorem Mirror.staged (hm : Mirror (diffable new) nb D db k0 body g) (hA : Agree N db eb φ L D s E t)
    (hbody : ∀ b, new.arena.Anc nb b → ((diffable new).data b).props.isOpaque = false → body b = none) (hw : new.arena.WF)
    (hnd : ∀ n, new.arena.Anc nb n → (new.arena.data n).kind ≠ .document) (hc : new.ClearBody nb)
    (hk : k0.IsElement) : Staged N new nb E eb := by
  have hwd : (diffable new).WF := Built.diffable_wf hw
  have hcb : (new.arena.data nb).isOpaque = false := by rw [← diffable_isOpaque]; exact hc
  have hni : ¬ InsideOpaque (diffable new) nb nb := by
    rintro ⟨o, h1, _, h3, h4⟩
    exact h4 (hwd.anc_antisymm h1 h3)
  have hshow : ∀ b, new.arena.Anc nb b → ¬ InsideOpaque (diffable new) nb b → b ≠ nb →
      Shows new.arena E b (φ (g b)) := by
    intro b
    refine hw.induct_down (P := fun b => new.arena.Anc nb b → ¬ InsideOpaque (diffable new) nb b → b ≠ nb →
      Shows new.arena E b (φ (g b))) ?_ b
    intro b ih hb hi hne
    have hL := (hm.spot hA hbody hw hb hi).1
    refine .node ?_ (fun ho => (hm.kids_page hA hbody hb hi hL ho).1)
      (fun ho => (hm.kids_page hA hbody hb hi hL ho).2.1) (fun ho i c d hc hd => ?_)
    · have h1 := hA.data _ hL
      unfold DataSim at h1
      rw [hm.data b (diffable_anc hb) hi hne] at h1
      have : kindOf ((diffable new).data b) = (new.arena.data b).kind := kindOf_tdataOf (hnd b hb)
      rw [this] at h1
      exact h1.looks
    · have hcm := List.mem_of_getElem? hc
      have hp := (hw.mem_iff _ _).1 hcm
      rw [((hm.kids_page hA hbody hb hi hL ho).2.2 i c d hc hd).1]
      refine ih c hcm (.step hp hb) ?_ ?_
      · rw [InsideOpaque.parent_iff (A := diffable new) hwd hp (diffable_anc hb), diffable_isOpaque, ho]
        simpa using hi
      · rintro rfl
        exact not_anc_parent hw hp hb
  have hL : L (g nb) := by rw [hm.root]; exact hA.rootL
  have hroot := hm.kids_page hA hbody .refl hni hL hcb
  have he : φ (g nb) = eb := by rw [hm.root, hA.rootE]
  rw [he] at hroot
  have hsim := hA.data _ hA.rootL
  unfold DataSim at hsim
  rw [hm.rootK, hA.rootE] at hsim
  refine ⟨hA.ewf, ?_, ?_, hsim.isElement hk, ?_, hroot.1, hroot.2.1, ?_⟩
  · rw [← hA.rootE]; exact hA.elt _ hA.rootL
  · intro n x hn ht
    obtain ⟨m, h1, rfl⟩ := hA.below hn
    have h2 := hA.data m h1
    unfold DataSim at h2
    rw [ht] at h2
    rw [hA.kids m h1, hm.leaf m x h2.text_inv]
    rfl
  · intro n tag attrs hn hk'
    have : E.Anc eb n := by
      rcases hn with rfl | ⟨x, u, h1, _, h3, _⟩
      · exact .refl
      · exact (h1.ancE hA.ewf).trans h3
    obtain ⟨m, h1, rfl⟩ := hA.below this
    have h2 := hA.data m h1
    unfold DataSim at h2
    rw [hk'] at h2
    exact h2.written
  · intro i c d hc hd
    have hp := (hw.mem_iff _ _).1 (List.mem_of_getElem? hc)
    rw [(hroot.2.2 i c d hc hd).1]
    refine hshow c (.step hp .refl) ?_ ?_
    · rw [InsideOpaque.parent_iff (A := diffable new) hwd hp .refl, diffable_isOpaque, hcb]
      simpa using hni
    · rintro rfl
      exact not_anc_parent hw hp .refl

end
end Hotmeal
