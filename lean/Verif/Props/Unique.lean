import Verif.Lemmas.Unique
import Verif.Props.TextEdits
import Verif.Props.Live

set_option autoImplicit false
set_option linter.unusedSectionVars false

/-!
# C52: content that occurs once is kept
-/

namespace Hotmeal

/-- Two texts, two comments, or two elements of the same name. -/
def NodeData.SameType (d e : NodeData) : Prop :=
  match d.kind, e.kind with
  | .element tag _, .element tag' _ => tag = tag' ∧ d.ns = e.ns
  | .text _, .text _ => True
  | .comment _, .comment _ => True
  | _, _ => False

/-- Nodes at the same depth below `ra` and below `rb` whose ancestors are pairwise of the same name. -/
inductive SameTrail (A B : Arena NodeData) (ra rb : Nat) : Nat → Nat → Prop
  | root : SameTrail A B ra rb ra rb
  | child {p q a b : Nat} (h : SameTrail A B ra rb p q) (ha : A.parent a = some p)
      (hb : B.parent b = some q) (hk : (A.data a).SameType (B.data b)) : SameTrail A B ra rb a b

/-- `x` in the old body and `y` in the new one have the same content (names and texts, attributes aside), no
other node of the old body and no other node of the new body has it, and their ancestors are pairwise of the
same name. -/
structure OnceInBoth (old new : Document) (ob nb x y : Nat) : Prop where
  same : Arena.Alike NodeData.SameContent old.arena new.arena x y
  onceOld : ∀ n, old.arena.Anc ob n → Arena.Alike NodeData.SameContent old.arena new.arena n y → n = x
  onceNew : ∀ m, new.arena.Anc nb m → Arena.Alike NodeData.SameContent old.arena new.arena x m → m = y
  trail : SameTrail old.arena new.arena ob nb x y

variable {H : Type} [DecidableEq H] {hashNode : HKind → Option Str → List H → H}
  {old new : Document} {ob nb : Nat}

theorem NodeData.SameType.tdata {d e : NodeData} (h : d.SameType e) : (tdataOf d).kind = (tdataOf e).kind := by
  obtain ⟨k, ns⟩ := d
  obtain ⟨k', ns'⟩ := e
  cases k <;> cases k' <;> simp only [NodeData.SameType] at h <;> try exact h.elim
  · obtain ⟨rfl, rfl⟩ := h; rfl
  · rfl
  · rfl

theorem SameTrail.built {T : Arena TData} {g : Nat → Nat} (hb : Built old ob T g) (hw : old.arena.WF)
    {x y : Nat} (h : SameTrail old.arena new.arena ob nb x y) :
    ∃ a, a < T.next ∧ g a = x ∧ Trail T (diffable new) 0 nb a y := by
  induction h with
  | root => exact ⟨0, hb.pos, hb.g0, .root⟩
  | @child p q x y _ hx hy hk ih =>
    obtain ⟨p', hp', rfl, ht⟩ := ih
    have hm := (hw.mem_iff _ _).2 hx
    rw [hb.kids p' hp', List.mem_map] at hm
    obtain ⟨a, ha, rfl⟩ := hm
    have hpa := (hb.wf.mem_iff _ _).1 ha
    have hlt := (hb.wf.lt_of_parent _ _ hpa).1
    refine ⟨a, hlt, rfl, .child ht hpa hy ?_⟩
    rw [hb.data a hlt (by rintro rfl; rw [hb.root] at hpa; cases hpa)]
    exact hk.tdata

theorem OnceInBoth.lone (h : Comparable old new ob nb)
    (hc : NoCollision hashNode (buildTree old ob) (diffable new) nb) (ho : old.Clear ob) (hn : new.Clear nb)
    {g : Nat → Nat} (hb : Built old ob (buildTree old ob) g)
    (hinj : ∀ n m, (buildTree old ob).Anc 0 n → (buildTree old ob).Anc 0 m → g n = g m → n = m)
    {x y : Nat} (hu : OnceInBoth old new ob nb x y) :
    ∃ a, g a = x ∧ Lone hashNode (buildTree old ob) (diffable new) 0 nb a y := by
  have hw := h.old.sound.arena.wf
  have hBw : (diffable new).WF := Built.diffable_wf h.new.sound.arena.wf
  obtain ⟨a, ha, rfl, ht⟩ := hu.trail.built hb hw
  have hsame := fun a b h1 h2 e => hb.same_of_shape (new := new) (nb := nb) h.old.body hBw
    (TextEdit.no_document h.old) (TextEdit.no_document h.new) hw a b h1 h2 e
  have hs : (buildTree old ob).shape a = (diffable new).shape y :=
    alike_hash' (hashNode := Shape.node) hb.wf hBw 0 nb (hb.shape_of_same h.old.body a y ha hu.same)
  refine ⟨a, rfl, ?_, ?_, hc, hs, ?_, ?_, ht⟩
  · intro n hn
    by_cases e : n = 0
    · rw [e, hb.rdata]; rfl
    · rw [hb.data _ (hb.lt_of_anc hn) e]
      exact ho.tdata (hb.ganc hw hn)
  · exact fun n hn' => hn.tdata (anc_of_diffable hn')
  · intro n hn e
    exact hinj n a hn ht.ancA (hu.onceOld (g n) (hb.ganc hw hn) (hsame n y hn ht.ancB (e.trans hs)))
  · intro m hm e
    exact hu.onceNew m (anc_of_diffable hm) (hsame a m ht.ancA hm (hs.trans e.symm))

/-- Places in a tree that mirrors the new body. -/
theorem Mirror.place {A : Arena NodeData} {k0 : NodeKind} {body : Nat → Option (List Html)} {g : Nat → Nat}
    (hm : Mirror (diffable new) nb A ob k0 body g) (hw : new.arena.WF)
    (hin : ∀ b, ¬ InsideOpaque (diffable new) nb b) (hbody : ∀ b, new.arena.Anc nb b → body b = none) {b : Nat}
    (h : new.arena.Anc nb b) : Place new.arena A nb ob b (g b) := by
  induction h with
  | refl => rw [hm.root]; exact .root
  | @step b p hp h ih =>
    obtain ⟨i, hi⟩ := List.mem_iff_getElem?.1 ((hw.mem_iff _ _).2 hp)
    obtain ⟨junk, hk, _⟩ := hm.kids p (diffable_anc h) (hin p) (hbody p h)
    refine .child ih hi ?_
    have hlt := (List.getElem?_eq_some_iff.1 hi).1
    rw [hk, List.getElem?_append_left (by rw [List.length_map]; exact hlt), List.getElem?_map]
    show ((new.arena.children p)[i]?).map g = _
    rw [hi]; rfl

/-- Nodes whose content occurs once are matched. -/
theorem OnceInBoth.matched_clear (h : Comparable old new ob nb)
    (hc : NoCollision hashNode (buildTree old ob) (diffable new) nb) (ho : old.Clear ob) (hn : new.Clear nb)
    {f : Nat → Nat} (hd : DocRel (buildTree old ob) old.arena ob f) (hbt : Built old ob (buildTree old ob) f)
    {x y : Nat} (hu : OnceInBoth old new ob nb x y) :
    ∃ a, f a = x ∧ (a, y) ∈ (diffMatching (oldTree hashNode old ob) (newTree hashNode new nb)).pairs := by
  have hBw : (diffable new).WF := Built.diffable_wf h.new.sound.arena.wf
  have hold : ∀ n, (buildTree old ob).Anc 0 n → Plan.Old (buildTree old ob) n := by
    intro n hn
    refine ⟨hbt.lt_of_anc hn, ?_⟩
    rintro ⟨o, h1, h2, _⟩
    by_cases e : o = 0
    · rw [e, hbt.rdata] at h2; cases h2
    · rw [hbt.data _ (hbt.lt_of_anc h1) e, ho.tdata (hbt.ganc h.old.sound.arena.wf h1)] at h2
      cases h2
  have hinj : ∀ n m, (buildTree old ob).Anc 0 n → (buildTree old ob).Anc 0 m → f n = f m → n = m :=
    fun n m h1 h2 => hd.inj hbt.wf h1 h2 (hold n h1) (hold m h2)
  obtain ⟨a, rfl, hl⟩ := hu.lone h hc ho hn hbt hinj
  exact ⟨a, rfl, (hl.sole hbt.wf hBw).matched hbt.wf hBw⟩

/-- A run of the patches of `diff` puts every matched node at its new place. -/
theorem Comparable.matched_run {step : StepFn} (hL : Lawful ob step) (h : Comparable old new ob nb)
    (hc : NoCollision hashNode (buildTree old ob) (diffable new) nb) (ho : old.Clear ob) (hn : new.Clear nb)
    (hf : NoMoveBelowSelf hashNode old new ob nb ∨ NoInversion hashNode old new ob nb)
    {f : Nat → Nat} (hd : DocRel (buildTree old ob) old.arena ob f)
    (hbt : Built old ob (buildTree old ob) f) :
    ∃ S0 ps w, diff hashNode old new = .ok ps ∧
      Trace (diffable new) (insertedNodes (script hashNode old new ob nb)) step f
        (Surplus (Plan.ctx (buildTree old ob) (diffable new)
          (diffMatching (oldTree hashNode old ob) (newTree hashNode new nb)) old.arena f) old.arena f)
        ⟨⟨S0, initBToShadow (diffMatching (oldTree hashNode old ob) (newTree hashNode new nb))⟩, old.arena,
          Arena.upd (fun _ => none) 0 (some ob), fun b =>
            ((diffMatching (oldTree hashNode old ob) (newTree hashNode new nb)).getA b).map f⟩
        (script hashNode old new ob nb) ps w ∧
      Framed old.arena ob w.D ∧ (∃ attrs, (w.D.data ob).kind = .element "body".toList attrs) ∧
      ∀ a y, (a, y) ∈ (diffMatching (oldTree hashNode old ob) (newTree hashNode new nb)).pairs →
        Place new.arena w.D nb ob y (f a) ∧
        (y ≠ nb → (w.D.data (f a)).kind = (new.arena.data y).kind) := by
  have hof := opaqueFixed_of_clear (hashNode := hashNode) h ho hn
  have hBw : (diffable new).WF := Built.diffable_wf h.new.sound.arena.wf
  obtain ⟨S0, ps, w, g, hS0, e, ht, hg, hm, hfr⟩ := h.run hc hof.agree hf hL hd
    (slots := Arena.upd (fun _ => none) 0 (some ob)) (by simp)
  rw [h.reports_nil hc hof.agree hof.same, List.append_nil] at e
  refine ⟨S0, ps, w, e, ht, hfr, ?_, ?_⟩
  · obtain ⟨_, attrs, hk⟩ := Document.body_spec h.old.body
    rw [hm.rootK, hk]
    exact ⟨_, rfl⟩
  · intro a y hmt
    have hin : ∀ b, ¬ InsideOpaque (diffable new) nb b := by
      rintro b ⟨o, h1, h2, _⟩
      have := hn.tdata (anc_of_diffable h1)
      rw [show (tdataOf (new.arena.data o)).props.isOpaque = true from h2] at this
      cases this
    have hbody : ∀ b, new.arena.Anc nb b → Plan.bodyOf (diffable new)
        (diffMatching (oldTree hashNode old ob) (newTree hashNode new nb)) old.arena f b = none := by
      intro b hb
      unfold Plan.bodyOf
      rw [if_neg]
      rw [show ((diffable new).data b).props.isOpaque = false from hn.tdata hb]
      exact Bool.false_ne_true
    have hgA := ((h.plan hashNode hc hof.agree hbt).getA _ _).2 hmt
    have hni : y ∉ insertedNodes (script hashNode old new ob nb) := by
      intro hy
      unfold insertedNodes at hy
      rw [List.mem_filterMap] at hy
      obtain ⟨o, ho, e⟩ := hy
      cases o with
      | insert b' pb pos k =>
        simp only [Option.some.injEq] at e
        subst e
        have := ((C10_inserts_are_the_unmatched hBw _ _ _ _ _).1 ho).2.1
        rw [hgA] at this
        cases this
      | _ => cases e
    have hyB := ((h.plan hashNode hc hof.agree hbt).lt _ _ hmt).2
    have hyn := anc_of_diffable hyB
    have e1 := hg y hyn (hin y)
    rw [ht.c_stable hni] at e1
    simp only [hgA, Option.map_some, Option.some.injEq] at e1
    rw [e1]
    refine ⟨hm.place h.new.sound.arena.wf hin hbody hyn, fun hne => ?_⟩
    rw [hm.data y hyB (hin y) hne]
    exact kindOf_tdataOf (TextEdit.no_document h.new y hyn)

/-- **C52**, partial: the patches of `diff` keep every node whose content occurs exactly once in the old body
and exactly once in the new one. After they are applied, the very node of the old document stands at the place
of its copy in the new document. It has the attributes of the copy.

Missing from the full statement: nodes whose ancestors differ in number or name, for which it is false
(`C52_violated`), pages with opaque elements, and edit scripts with a Move of a node below itself. It is about
the node itself: a node inside it whose content occurs more than once need not be kept
(`C52_violated_by_repeated_text`). -/
theorem C52_unique_content_is_kept_partial (parse : Str → Document) (h : Comparable old new ob nb)
    (hc : NoCollision hashNode (buildTree old ob) (diffable new) nb) (ho : old.Clear ob) (hn : new.Clear nb)
    (hf : NoMoveBelowSelf hashNode old new ob nb ∨ NoInversion hashNode old new ob nb) :
    ∃ ps old', diff hashNode old new = .ok ps ∧ applyPatches parse old ps = .ok old' ∧
      old'.body = some ob ∧ ∀ x y, OnceInBoth old new ob nb x y →
        Place new.arena old'.arena nb ob y x ∧
        (y ≠ nb → (old'.arena.data x).kind = (new.arena.data y).kind) := by
  obtain ⟨f, hd, hbt⟩ := h.docRel_old
  obtain ⟨S0, ps, w, e, ht, hfr, hk, hu⟩ := h.matched_run (lawful_native parse _) hc ho hn hf hd hbt
  refine ⟨ps, _, e, h.applyPatches_eq parse ps ht.apply,
    hfr.body_eq h.old.sound.arena.wf h.old.body hk, fun x y hxy => ?_⟩
  obtain ⟨a, rfl, hm⟩ := hxy.matched_clear h hc ho hn hd hbt
  exact hu a y hm

/-- In the browser every matched node is put at its new place. -/
theorem Comparable.matched_browser {N : QualName → Prop} (dom : WebDom)
    (h : Comparable old new ob nb)
    (hc : NoCollision hashNode (buildTree old ob) (diffable new) nb) (ho : old.Clear ob) (hn : new.Clear nb)
    (hf : NoMoveBelowSelf hashNode old new ob nb ∨ NoInversion hashNode old new ob nb)
    (hN : PlainNames N) (hno : old.NamesIn N ob) (hnn : new.NamesIn N nb)
    {E : Arena NodeData} {eb : Nat} (hE : E.WF) (heb : eb < E.next) (hEe : E.ElemBelow eb)
    (hEl : E.Lower) (hk : new.AllIn dom.KeepsTag dom.KeepsName nb)
    (hsame : (E.tree eb).unq = (old.arena.tree ob).unq)
    {f : Nat → Nat} (hd : DocRel (buildTree old ob) old.arena ob f) (hbt : Built old ob (buildTree old ob) f) :
    ∃ ps E', diff hashNode old new = .ok ps ∧ dom.applyPatches eb E ps = .ok E' ∧
      ∀ a y, (a, y) ∈ (diffMatching (oldTree hashNode old ob) (newTree hashNode new nb)).pairs →
        ∀ n, Place old.arena E ob eb (f a) n → Place new.arena E' nb eb y n := by
  have hso := h.old.sound.arena
  have hof := opaqueFixed_of_clear (hashNode := hashNode) h ho hn
  have hbm := (Document.body_spec h.old.body).1
  have hbp := (hso.wf.mem_iff _ _).1 hbm
  obtain ⟨φ, hA⟩ := agree_of_tree (N := N) hso.wf hE (hso.wf.lt_of_parent _ _ hbp).1 heb ⟨_, hbp⟩
    h.old.elemBelow hEe (fun n tag attrs ha ek => ⟨hno n tag attrs ha ek, hso.uniq n tag attrs ek⟩) hsame
  obtain ⟨S0, ps, w, e, ht, hfr, _, hu⟩ := h.matched_run (lawful_forget (fun _ => .ofForest []) _) hc ho hn hf hd hbt
  obtain ⟨φ1, L1, E1, t1, e4, hA1, hx⟩ := ht.browser (Built.diffable_wf h.new.sound.arena.wf) hN
    (hbt.not_surplus _) (h.script_names hc hof.agree hnn) hA
  refine ⟨ps, E1, e, ?_, fun a y hay n hp => ?_⟩
  · rw [WebDom.applyPatches_eq hEl fun P hP => C31_names_from_new dom h hc hof.agree hk e P hP]
    simp only [Wasm.applyPatches, e4, bind, Except.bind]
  · -- the node of the page is the image of the old node
    generalize hfx : f a = x at hp
    have h1 : old.arena.Anc ob x ∧ n = φ x := by
      clear hfx
      induction hp with
      | root => exact ⟨.refl, hA.rootE.symm⟩
      | @child p q i a b _ ha hb ih =>
        obtain ⟨i1, rfl⟩ := ih
        rw [hA.kids p i1, List.getElem?_map, ha] at hb
        exact ⟨.step ((hso.wf.mem_iff _ _).1 (List.mem_of_getElem? ha)) i1, (Option.some.inj hb).symm⟩
    obtain ⟨h1, rfl⟩ := h1
    rw [← (hx x h1).2]
    have h2 : ∀ y x, Place new.arena w.D nb ob y x → L1 x ∧ Place new.arena E1 nb eb y (φ1 x) := by
      intro y x hp
      induction hp with
      | root => exact ⟨hA1.rootL, by rw [hA1.rootE]; exact .root⟩
      | @child p q i a b _ ha hb ih =>
        obtain ⟨i1, i2⟩ := ih
        refine ⟨hA1.down _ _ i1 (List.mem_of_getElem? hb), .child i2 ha ?_⟩
        rw [hA1.kids _ i1, List.getElem?_map, hb]; rfl
    exact (h2 y x (hfx ▸ (hu a y hay).1)).2

/-- **C52**, partial, in the browser: when the page shows the body of the old document and the patches of
`diff` are applied to it, every node of the page whose content occurs once stands at the place of its copy in
the new document, and it is the same DOM node. Missing: as above and as for `C31_browser_agrees_partial`. -/
theorem C52_browser_keeps_unique_content_partial {N : QualName → Prop} (dom : WebDom)
    (h : Comparable old new ob nb)
    (hc : NoCollision hashNode (buildTree old ob) (diffable new) nb) (ho : old.Clear ob) (hn : new.Clear nb)
    (hf : NoMoveBelowSelf hashNode old new ob nb ∨ NoInversion hashNode old new ob nb)
    (hN : PlainNames N) (hno : old.NamesIn N ob) (hnn : new.NamesIn N nb)
    {E : Arena NodeData} {eb : Nat} (hE : E.WF) (heb : eb < E.next) (hEe : E.ElemBelow eb)
    (hEl : E.Lower) (hk : new.AllIn dom.KeepsTag dom.KeepsName nb)
    (hsame : (E.tree eb).unq = (old.arena.tree ob).unq) :
    ∃ ps E', diff hashNode old new = .ok ps ∧ dom.applyPatches eb E ps = .ok E' ∧
      ∀ x y, OnceInBoth old new ob nb x y → ∀ n, Place old.arena E ob eb x n → Place new.arena E' nb eb y n := by
  obtain ⟨f, hd, hbt⟩ := h.docRel_old
  obtain ⟨ps, E', e1, e2, hu⟩ := h.matched_browser dom hc ho hn hf hN hno hnn hE heb hEe hEl hk hsame hd hbt
  refine ⟨ps, E', e1, e2, fun x y hxy n hp => ?_⟩
  obtain ⟨a, rfl, hm⟩ := hxy.matched_clear h hc ho hn hd hbt
  exact hu a y hm n hp

/-! ### Concrete cases -/

/-- Checker for `NodeData.SameType`. -/
def sameTypeB (d e : NodeData) : Bool :=
  match d.kind, e.kind with
  | .element tag _, .element tag' _ => tag == tag' && decide (d.ns = e.ns)
  | .text _, .text _ => true
  | .comment _, .comment _ => true
  | _, _ => false

theorem sameTypeB_spec (d e : NodeData) (h : sameTypeB d e = true) : d.SameType e := by
  obtain ⟨k, ns⟩ := d
  obtain ⟨k', ns'⟩ := e
  cases k <;> cases k' <;> simp_all [sameTypeB, NodeData.SameType]

/-- Checker for `OnceInBoth` without the trail. -/
def onceB (D E : Document) (ob nb x y : Nat) : Bool :=
  alikeB sameContentB D.arena E.arena 9 x y &&
  (D.arena.descendants ob).all (fun n => decide (n = x) ||
    !decide ((diffable D).shape n = (diffable E).shape y)) &&
  (E.arena.descendants nb).all (fun m => decide (m = y) ||
    !decide ((diffable D).shape x = (diffable E).shape m))

theorem onceB_spec {D E : Document} {ob nb x y : Nat} (hD : D.arena.WF) (hE : E.arena.WF)
    (h : onceB D E ob nb x y = true) :
    Arena.Alike NodeData.SameContent D.arena E.arena x y ∧
    (∀ n, D.arena.Anc ob n → Arena.Alike NodeData.SameContent D.arena E.arena n y → n = x) ∧
    (∀ m, E.arena.Anc nb m → Arena.Alike NodeData.SameContent D.arena E.arena x m → m = y) := by
  simp only [onceB, Bool.and_eq_true, List.all_eq_true, Bool.or_eq_true, decide_eq_true_eq,
    Bool.not_eq_true', decide_eq_false_iff_not] at h
  obtain ⟨⟨h1, h2⟩, h3⟩ := h
  refine ⟨alike_of_alikeB sameContentB_spec h1, fun n hn hs => ?_, fun m hm hs => ?_⟩
  · rcases h2 n ((hD.mem_descendants _ _).2 hn) with h | h
    · exact h
    · exact absurd (sameContent_shape (Built.diffable_wf hD) (Built.diffable_wf hE) hs) h
  · rcases h3 m ((hE.mem_descendants _ _).2 hm) with h | h
    · exact h
    · exact absurd (sameContent_shape (Built.diffable_wf hD) (Built.diffable_wf hE) hs) h

/-- Checker for `Document.Clear`. -/
def clearB (D : Document) (b : Nat) : Bool :=
  (D.arena.descendants b).all fun n => !(tdataOf (D.arena.data n)).props.isOpaque

theorem clear_of {D : Document} {b : Nat} (hD : D.arena.WF) (h : clearB D b = true) : D.Clear b := by
  intro n tag attrs hn hk
  simp only [clearB, List.all_eq_true, Bool.not_eq_true'] at h
  have := h n ((hD.mem_descendants _ _).2 hn)
  simp only [tdataOf, hk] at this
  exact this

/-- A page of two sections. -/
def sections1 : List Html :=
  [ex "h1" [] [.text "News".toList],
    ex "ul" [("class", "a")] [ex "li" [] [.text "one".toList], ex "li" [] [.text "two".toList]]]
/-- The page with its list first, another item and another heading. -/
def sections2 : List Html :=
  [ex "ul" [("class", "b")] [ex "li" [] [.text "zero".toList], ex "li" [] [.text "two".toList],
      ex "li" [] [.text "one".toList]],
    ex "h2" [] [.text "News".toList]]

/-- The hypotheses of C52 hold for these pages and the item "one", which is at another place of another list. -/
example : Comparable (.ofForest sections1) (.ofForest sections2) 2 2 ∧
    NoCollision Shape.node (buildTree (.ofForest sections1) 2) (diffable (.ofForest sections2)) 2 ∧
    (Document.ofForest sections1).Clear 2 ∧ (Document.ofForest sections2).Clear 2 ∧
    NoMoveBelowSelf Shape.node (.ofForest sections1) (.ofForest sections2) 2 2 ∧
    OnceInBoth (.ofForest sections1) (.ofForest sections2) 2 2 6 8 := by
  have h1 := ofForest_valid sections1 (by decide +kernel)
  have h2 := ofForest_valid sections2 (by decide +kernel)
  obtain ⟨h3, h4, h5⟩ := onceB_spec (ob := 2) (nb := 2) (x := 6) (y := 8) h1.wf h2.wf (by decide +kernel)
  refine ⟨comparable_ofForest (by decide +kernel) (by decide +kernel), noCollision_shape _ _ _,
    clear_of h1.wf (by decide +kernel), clear_of h2.wf (by decide +kernel),
    noMoveBelowSelf_of_movesSafe (by decide +kernel), h3, h4, h5, ?_⟩
  refine .child (p := 5) (q := 3) (.child .root ?_ ?_ ?_) ?_ ?_ ?_
  · decide +kernel
  · decide +kernel
  · exact sameTypeB_spec _ _ (by decide +kernel)
  · decide +kernel
  · decide +kernel
  · exact sameTypeB_spec _ _ (by decide +kernel)

/-- The further hypotheses of the browser version, with a page that holds the first of these pages. -/
example : PlainNames bareName ∧ (Document.ofForest sections1).NamesIn bareName 2 ∧
    (Document.ofForest sections2).NamesIn bareName 2 ∧
    (Document.ofForest sections1).arena.WF ∧ 2 < (Document.ofForest sections1).arena.next ∧
    (Document.ofForest sections1).arena.ElemBelow 2 ∧ (Document.ofForest sections1).arena.Lower ∧
    (Document.ofForest sections2).AllIn WebDom.lenient.KeepsTag WebDom.lenient.KeepsName 2 := by
  have h1 := ofForest_valid sections1 (by decide +kernel)
  have h2 := ofForest_valid sections2 (by decide +kernel)
  have hc : Comparable (.ofForest sections1) (.ofForest sections2) 2 2 :=
    comparable_ofForest (by decide +kernel) (by decide +kernel)
  exact ⟨plainNames_bare, namesIn_of_bareB h1.wf (by decide +kernel) (by decide +kernel),
    namesIn_of_bareB h2.wf (by decide +kernel) (by decide +kernel), h1.wf, by decide +kernel,
    hc.old.elemBelow, lower_ofForest (by decide +kernel),
    allIn_of_keptB h2.wf (by decide +kernel) (by decide +kernel)⟩

/-- **C52** is violated when a paragraph that occurs once is put into a new `div`: the node of the paragraph
is not in the page any more. -/
theorem C52_violated : ∃ (cs ds : List Html) (x y : Nat),
    x ∈ (Document.ofForest cs).arena.descendants 2 ∧ y ∈ (Document.ofForest ds).arena.descendants 2 ∧
    Arena.Alike NodeData.SameContent (Document.ofForest cs).arena (Document.ofForest ds).arena x y ∧
    (∀ n, (Document.ofForest cs).arena.Anc 2 n → Arena.Alike NodeData.SameContent
      (Document.ofForest cs).arena (Document.ofForest ds).arena n y → n = x) ∧
    (∀ m, (Document.ofForest ds).arena.Anc 2 m → Arena.Alike NodeData.SameContent
      (Document.ofForest cs).arena (Document.ofForest ds).arena x m → m = y) ∧
    (match diff Shape.node (.ofForest cs) (.ofForest ds) with
      | .ok ps => match applyPatches (fun _ => .ofForest []) (.ofForest cs) ps with
        | .ok D => decide (x ∉ D.arena.descendants 2)
        | .error _ => false
      | .error _ => false) = true := by
  have h1 := ofForest_valid [ex "p" [] [.text "a".toList]] (by decide +kernel)
  have h2 := ofForest_valid [ex "div" [] [ex "p" [] [.text "a".toList]]] (by decide +kernel)
  obtain ⟨h3, h4, h5⟩ := onceB_spec (ob := 2) (nb := 2) (x := 3) (y := 4) h1.wf h2.wf (by decide +kernel)
  exact ⟨_, _, 3, 4, by decide +kernel, by decide +kernel, h3, h4, h5, by decide +kernel⟩

/-- **C52** does not extend to what is inside a node that occurs once: when a paragraph with the same text and
more is added below an unchanged paragraph, the text node of the unchanged paragraph is moved to the added one
and replaced by a new text node. -/
theorem C52_violated_by_repeated_text : ∃ (cs ds : List Html) (x y t : Nat),
    OnceInBoth (.ofForest cs) (.ofForest ds) 2 2 x y ∧
    (Document.ofForest cs).arena.parent t = some x ∧
    (match diff Shape.node (.ofForest cs) (.ofForest ds) with
      | .ok ps => match applyPatches (fun _ => .ofForest []) (.ofForest cs) ps with
        | .ok D => decide (D.arena.parent t ≠ some x) && decide (t ∈ D.arena.descendants 2)
        | .error _ => false
      | .error _ => false) = true := by
  have h1 := ofForest_valid [ex "p" [] [.text "a".toList]] (by decide +kernel)
  have h2 := ofForest_valid [ex "p" [] [.text "a".toList], ex "p" [] [.text "a".toList, ex "b" [] []]]
    (by decide +kernel)
  obtain ⟨h3, h4, h5⟩ := onceB_spec (ob := 2) (nb := 2) (x := 3) (y := 3) h1.wf h2.wf (by decide +kernel)
  refine ⟨_, _, 3, 3, 4, ⟨h3, h4, h5, .child .root ?_ ?_ ?_⟩, by decide +kernel, by decide +kernel⟩
  · decide +kernel
  · decide +kernel
  · exact sameTypeB_spec _ _ (by decide +kernel)

end Hotmeal
