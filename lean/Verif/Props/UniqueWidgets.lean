import Verif.Props.WidgetsLive

set_option autoImplicit false
set_option linter.unusedSectionVars false

/-!
# C52 on pages with opaque elements
-/

namespace Hotmeal

variable {H : Type} [DecidableEq H] {hashNode : HKind → Option Str → List H → H}
  {old new : Document} {ob nb : Nat} {N : QualName → Prop}

/-- Neither `x` nor an element around it is opaque. -/
def Document.Outside (D : Document) (b x : Nat) : Prop :=
  ∀ n, D.arena.Anc b n → D.arena.Anc n x → (D.arena.data n).isOpaque = false

/-- A node whose content occurs once is matched, whatever opaque elements there are elsewhere. -/
theorem OnceInBoth.matched {x y : Nat} (hu : OnceInBoth old new ob nb x y) (h : Comparable old new ob nb)
    (hc : NoCollision hashNode (buildTree old ob) (diffable new) nb) (hob : old.ClearBody ob)
    (hap : Apart old new ob nb) (hx : old.Outside ob x) (hy : new.Outside nb y) {g : Nat → Nat}
    (hb : Built old ob (buildTree old ob) g) :
    ∃ a, (buildTree old ob).Anc 0 a ∧ g a = x ∧
      (a, y) ∈ (diffMatching (oldTree hashNode old ob) (newTree hashNode new nb)).pairs := by
  have hw := h.old.sound.arena.wf
  have hBw : (diffable new).WF := Built.diffable_wf h.new.sound.arena.wf
  obtain ⟨a, ha, rfl, ht⟩ := hu.trail.built hb hw
  have hsame := fun a b h1 h2 e => hb.same_of_shape (new := new) (nb := nb) h.old.body hBw
    (TextEdit.no_document h.old) (TextEdit.no_document h.new) hw a b h1 h2 e
  have hs : (buildTree old ob).shape a = (diffable new).shape y :=
    alike_hash' (hashNode := Shape.node) hb.wf hBw 0 nb (hb.shape_of_same h.old.body a y ha hu.same)
  have hA : ∀ n, (buildTree old ob).Anc 0 n → (buildTree old ob).shape n = (diffable new).shape y → n = a :=
    fun n hn e => hb.ginj hw hn a ht.ancA (hu.onceOld (g n) (hb.ganc hw hn) (hsame n y hn ht.ancB e))
  have hB : ∀ m, (diffable new).Anc nb m → (buildTree old ob).shape a = (diffable new).shape m → m = y :=
    fun m hm e => hu.onceNew m (anc_of_diffable hm) (hsame a m ht.ancA hm e)
  have hopA : ∀ n, (buildTree old ob).Anc 0 n → (buildTree old ob).Anc n a →
      ((buildTree old ob).data n).props.isOpaque = false := by
    intro n hn hna
    rw [hb.isOpaque_at hob (hb.lt_of_anc hn)]
    exact hx _ (hb.ganc hw hn) (hb.anc_image hw hna)
  have hopB : ∀ m, (diffable new).Anc nb m → (diffable new).Anc m y →
      ((diffable new).data m).props.isOpaque = false := by
    intro m hm hmy
    rw [diffable_isOpaque]
    exact hy m (anc_of_diffable hm) (anc_of_diffable hmy)
  refine ⟨a, ht.ancA, rfl, Sole.matched hb.wf hBw (x := a) (y := y) (ra := 0) (rb := nb) ?_⟩
  refine ⟨hc, ?_, hB, hA, fun n hn hna _ => hopA n hn hna, fun m hm hmy _ => hopB m hm hmy,
    fun n m hn hm e => hap.tree h hob hb hn hm e, ?_, ?_, .inl hs, ht⟩
  · intro n m hn hm e
    constructor
    · intro hx
      obtain ⟨y', h1, h2⟩ := shape_below hb.wf hBw hx m e
      rw [← hB y' (hm.trans h1) h2]; exact h1
    · intro hy
      obtain ⟨x', h1, h2⟩ := shape_below hBw hb.wf hy n e.symm
      rw [← hA x' (hn.trans h1) h2.symm]; exact h1
  · intro e
    rw [hopA a ht.ancA .refl] at e
    cases e
  · intro e
    rw [hopB y ht.ancB .refl] at e
    cases e

/-- **C52**, partial, on pages with opaque elements: a page shows the old document, and scripts have filled its
opaque elements. Then the client applies the patches of `diff`. A node outside opaque elements whose content occurs
exactly once in the old body and exactly once in the new one is the same DOM node afterwards, and stands at the place
of its copy in the new document. It has the attributes of the copy. Errors that reports about opaque elements cause
do not matter.

Missing from the full statement: nodes whose ancestors differ in number or name, for which it is false
(`C52_violated`), elements of one name of which some are opaque and others not, and edit scripts with a Move of a node
below itself. -/
theorem C52_unique_content_beside_widgets_partial (dom : WebDom) (hv : Served dom hashNode N old new ob nb)
    (hN : PlainNames N) {E : Arena NodeData} {eb : Nat} (hlow : E.Lower) (hs : Staged N old ob E eb) :
    ∃ ps, diff hashNode old new = .ok ps ∧ ∀ x y u, OnceInBoth old new ob nb x y → old.Outside ob x →
      new.Outside nb y → Spot old.arena E ob eb x u →
      Spot new.arena (dom.applyPatchesKeep eb E ps).1 nb eb y u ∧
      (y ≠ nb → ((dom.applyPatchesKeep eb E ps).1.data u).kind.Looks (new.arena.data y).kind) := by
  obtain ⟨g, hb⟩ := buildTree_spec old hv.comparable.old.sound.arena.leafy ob
  obtain ⟨ps, rs, E', h1, h2, _, _, h4, h5, _, h7⟩ := hs.update dom hv.comparable hv.noCollision
    (hv.apart.agree hv.comparable hv.clearOld hv.noCollision) hv.clearOld hv.clearNew hv.moves hN hv.namesOld
    hv.namesNew hv.kept hlow hb
  refine ⟨ps ++ rs, h1, fun x y u hu hx hy hsp => ?_⟩
  rw [dom.applyPatchesKeep_reports h4 h2]
  obtain ⟨a, _, rfl, hm⟩ := hu.matched hv.comparable hv.noCollision hv.clearOld hv.apart hx hy hb
  have := h7 a y u hm hsp
  exact ⟨this, (h5.at_spot this).1⟩

/-- Checker for `Document.Outside`. -/
def outsideB (D : Document) (b x : Nat) : Bool :=
  (D.arena.descendants b).all fun n => !D.arena.isAncestorOrSelf n D.arena.next x || !(D.arena.data n).isOpaque

theorem outside_of {D : Document} {b x : Nat} (hD : D.arena.WF) (h : outsideB D b x = true) : D.Outside b x := by
  intro n hn hx
  simp only [outsideB, List.all_eq_true, Bool.or_eq_true, Bool.not_eq_true'] at h
  rcases h n ((hD.mem_descendants _ _).2 hn) with h | h
  · rw [(hD.isAncestorOrSelf_iff _ _).2 hx] at h
    cases h
  · exact h

/-- The hypotheses of the theorem hold for the shop with its map and the heading, which moves below the map. -/
example : Served WebDom.lenient Shape.node bareName (.ofForest shop1) (.ofForest shop2) 2 2 ∧
    PlainNames bareName ∧ (Document.ofForest shopPage).arena.Lower ∧
    Staged bareName (.ofForest shop1) 2 (Document.ofForest shopPage).arena 2 ∧
    OnceInBoth (.ofForest shop1) (.ofForest shop2) 2 2 3 6 ∧ (Document.ofForest shop1).Outside 2 3 ∧
    (Document.ofForest shop2).Outside 2 6 ∧
    Spot (Document.ofForest shop1).arena (Document.ofForest shopPage).arena 2 2 3 3 := by
  have h1 := ofForest_valid shop1 (by decide +kernel)
  have h2 := ofForest_valid shop2 (by decide +kernel)
  obtain ⟨h3, h4, h5⟩ := onceB_spec (D := .ofForest shop1) (E := .ofForest shop2) (ob := 2) (nb := 2) (x := 3)
    (y := 6) h1.wf h2.wf (by decide +kernel)
  refine ⟨(shop_served ['a'] ['b']).1, plainNames_bare, shop_staged.2.1, shop_staged.1,
    ⟨h3, h4, h5, .child .root (by decide +kernel) (by decide +kernel) (sameTypeB_spec _ _ (by decide +kernel))⟩,
    outside_of h1.wf (by decide +kernel), outside_of h2.wf (by decide +kernel),
    .child (i := 0) .root (by decide +kernel) (by decide +kernel) (by decide +kernel)⟩

end Hotmeal
