import Verif.Lemmas.Spot

set_option autoImplicit false
set_option linter.unusedSectionVars false

/-!
# C78: what scripts put into opaque elements survives updates
-/

namespace Hotmeal

/-- The nodes of `E` below `u` have the same children in `E'`, and below `u` the same data. -/
def SameInside (E E' : Arena NodeData) (u : Nat) : Prop :=
  ∀ n, E.Anc u n → E'.children n = E.children n ∧ (n ≠ u → (E'.data n).kind.Looks (E.data n).kind)

/-- Elements of the same name are opaque in both bodies or in neither. -/
def Apart (old new : Document) (ob nb : Nat) : Prop :=
  ∀ n m, old.arena.Anc ob n → new.arena.Anc nb m → (old.arena.data n).SameType (new.arena.data m) →
    (old.arena.data n).isOpaque = (new.arena.data m).isOpaque

/-- `x` in the old body and `y` in the new one are opaque elements of the same name that no other node of
the two bodies has, no element around them is opaque, and these are pairwise of the same name. -/
structure OnlyWidget (old new : Document) (ob nb x y : Nat) : Prop where
  opaqueOld : (old.arena.data x).isOpaque = true
  opaqueNew : (new.arena.data y).isOpaque = true
  onlyOld : ∀ n, old.arena.Anc ob n → (old.arena.data n).SameType (new.arena.data y) → n = x
  onlyNew : ∀ m, new.arena.Anc nb m → (old.arena.data x).SameType (new.arena.data m) → m = y
  aboveOld : ∀ n, old.arena.Anc ob n → old.arena.Anc n x → n ≠ x → (old.arena.data n).isOpaque = false
  aboveNew : ∀ m, new.arena.Anc nb m → new.arena.Anc m y → m ≠ y → (new.arena.data m).isOpaque = false
  trail : SameTrail old.arena new.arena ob nb x y

variable {H : Type} [DecidableEq H] {hashNode : HKind → Option Str → List H → H}
  {old new : Document} {ob nb : Nat} {N : QualName → Prop}

theorem NodeData.sameType_of {d e : NodeData} (hd : d.kind ≠ .document) (he : e.kind ≠ .document)
    (h : (tdataOf d).kind = (tdataOf e).kind) : d.SameType e := by
  obtain ⟨k, ns⟩ := d
  obtain ⟨k', ns'⟩ := e
  cases k <;> cases k' <;> simp_all [tdataOf, NodeData.SameType]

/-- The tree built from the old body has opaque nodes where the body has. -/
theorem Built.isOpaque_at {T : Arena TData} {g : Nat → Nat} (hb : Built old ob T g) (hob : old.ClearBody ob)
    {a : Nat} (ha : a < T.next) : (T.data a).props.isOpaque = (old.arena.data (g a)).isOpaque := by
  by_cases e : a = 0
  · rw [e, hb.rdata, hb.g0, ← diffable_isOpaque]
    exact hob.symm
  · rw [hb.data a ha e, NodeData.isOpaque_eq]

theorem Apart.tree (hap : Apart old new ob nb) (h : Comparable old new ob nb) (hob : old.ClearBody ob)
    {T : Arena TData} {g : Nat → Nat} (hb : Built old ob T g) {a b : Nat} (ha : T.Anc 0 a)
    (hB : (diffable new).Anc nb b) (e : (T.data a).kind = ((diffable new).data b).kind) :
    (T.data a).props.isOpaque = ((diffable new).data b).props.isOpaque := by
  have hlt := hb.lt_of_anc ha
  have hga := hb.ganc h.old.sound.arena.wf ha
  rw [hb.isOpaque_at hob hlt, diffable_isOpaque]
  refine hap _ _ hga (anc_of_diffable hB) (NodeData.sameType_of (TextEdit.no_document h.old _ hga)
    (TextEdit.no_document h.new _ (anc_of_diffable hB)) ?_)
  rw [← (hb.look h.old.body hlt).1]
  exact e

theorem Apart.agree (hap : Apart old new ob nb) (h : Comparable old new ob nb) (hob : old.ClearBody ob)
    (hc : NoCollision hashNode (buildTree old ob) (diffable new) nb) : OpaqueAgree hashNode old new ob nb := by
  obtain ⟨g, hb⟩ := buildTree_spec old h.old.sound.arena.leafy ob
  have hBw := Built.diffable_wf h.new.sound.arena.wf
  have hpairs := (diffMatching_pairs (hashNode := hashNode) (ra := 0) (rb := nb) hb.wf hBw).2
  have hkind := (diffMatching_good (hashNode := hashNode) hb.wf hBw hc (h.rootsApart hb)).1.rel
  intro p hp
  exact hap.tree h hob hb (hpairs p.1 p.2 hp).1 (hpairs p.1 p.2 hp).2 (hkind p.1 p.2 hp).2.2

theorem Built.ginj {T : Arena TData} {g : Nat → Nat} (hb : Built old ob T g) (hw : old.arena.WF) {n : Nat}
    (hn : T.Anc 0 n) : ∀ m, T.Anc 0 m → g n = g m → n = m := by
  induction hn with
  | refl =>
    intro m hm e
    apply Classical.byContradiction
    intro hne
    rw [hb.g0] at e
    exact hb.g_ne hw (hb.lt_of_anc hm) (fun e => hne e.symm) e.symm
  | @step n p hp hap ih =>
    intro m hm e
    have hnl := (hb.wf.lt_of_parent _ _ hp).1
    have hn0 : n ≠ 0 := by rintro rfl; rw [hb.root] at hp; cases hp
    rcases hm.cases' with e0 | ⟨q, hq, haq⟩
    · subst e0
      rw [hb.g0] at e
      exact absurd e (hb.g_ne hw hnl hn0)
    · have h1 := hb.gparent hw hp
      have h2 := hb.gparent hw hq
      rw [e, h2] at h1
      have := ih q haq (Option.some.inj h1).symm
      subst this
      have hnd := hw.nodup (g p)
      rw [hb.kids p (hb.wf.lt_of_parent _ _ hp).2] at hnd
      obtain ⟨i, hi⟩ := List.mem_iff_getElem?.1 ((hb.wf.mem_iff _ _).2 hp)
      obtain ⟨j, hj⟩ := List.mem_iff_getElem?.1 ((hb.wf.mem_iff _ _).2 hq)
      have hi' : (((T.children p).map g)[i]?) = some (g m) := by rw [List.getElem?_map, hi, ← e]; rfl
      have hj' : (((T.children p).map g)[j]?) = some (g m) := by rw [List.getElem?_map, hj]; rfl
      have := List.nodup_getElem?_inj hnd hi' hj'
      subst this
      rw [hi] at hj
      exact Option.some.inj hj

theorem Built.anc_image {T : Arena TData} {g : Nat → Nat} (hb : Built old ob T g) (hw : old.arena.WF) {a n : Nat}
    (h : T.Anc a n) : old.arena.Anc (g a) (g n) := by
  induction h with
  | refl => exact .refl
  | step hp _ ih => exact .step (hb.gparent hw hp) ih

/-- An only widget is matched. -/
theorem OnlyWidget.matched {x y : Nat} (hw : OnlyWidget old new ob nb x y) (h : Comparable old new ob nb)
    (hc : NoCollision hashNode (buildTree old ob) (diffable new) nb) (hob : old.ClearBody ob)
    (hap : Apart old new ob nb) {g : Nat → Nat} (hb : Built old ob (buildTree old ob) g) :
    ∃ a, (buildTree old ob).Anc 0 a ∧ g a = x ∧
      (a, y) ∈ (diffMatching (oldTree hashNode old ob) (newTree hashNode new nb)).pairs := by
  have hwo := h.old.sound.arena.wf
  have hBw : (diffable new).WF := Built.diffable_wf h.new.sound.arena.wf
  obtain ⟨a, ha, rfl, ht⟩ := hw.trail.built hb hwo
  have hdo := TextEdit.no_document h.old
  have hdn := TextEdit.no_document h.new
  have hx := hb.ganc hwo ht.ancA
  have hy := anc_of_diffable ht.ancB
  have hopa : ((buildTree old ob).data a).props.isOpaque = true := by
    rw [hb.isOpaque_at hob ha]; exact hw.opaqueOld
  have hopb : ((diffable new).data y).props.isOpaque = true := by
    rw [diffable_isOpaque]; exact hw.opaqueNew
  -- kinds of nodes of the trees are types of nodes of the documents
  have hA : ∀ n, (buildTree old ob).Anc 0 n → ((buildTree old ob).data n).kind = ((diffable new).data y).kind →
      n = a := by
    intro n hn e
    have hl := hb.lt_of_anc hn
    rw [(hb.look h.old.body hl).1] at e
    exact hb.ginj hwo hn a ht.ancA (hw.onlyOld _ (hb.ganc hwo hn)
      (NodeData.sameType_of (hdo _ (hb.ganc hwo hn)) (hdn _ hy) e))
  have hB : ∀ m, (diffable new).Anc nb m → ((buildTree old ob).data a).kind = ((diffable new).data m).kind →
      m = y := by
    intro m hm e
    rw [(hb.look h.old.body ha).1] at e
    exact hw.onlyNew m (anc_of_diffable hm) (NodeData.sameType_of (hdo _ hx) (hdn _ (anc_of_diffable hm)) e)
  have hkind : ∀ {n m : Nat}, (buildTree old ob).shape n = (diffable new).shape m →
      ((buildTree old ob).data n).kind = ((diffable new).data m).kind := by
    intro n m e
    rw [hb.wf.shape_eq, hBw.shape_eq] at e
    injection e
  have hka : ((buildTree old ob).data a).kind = ((diffable new).data y).kind := by
    cases ht with
    | root =>
      rw [hb.rdata] at hopa
      cases hopa
    | child _ _ _ hk => exact hk
  refine ⟨a, ht.ancA, rfl, Sole.matched hb.wf hBw (x := a) (y := y) (ra := 0) (rb := nb) ?_⟩
  refine ⟨hc, ?_, ?_, ?_, ?_, ?_, ?_, ?_, ?_, .inr ⟨hka, hopa⟩, ht⟩
  · intro n m hn hm e
    constructor
    · intro hx
      obtain ⟨y', h1, h2⟩ := shape_below hb.wf hBw hx m e
      rw [← hB y' (hm.trans h1) (hkind h2)]; exact h1
    · intro hy
      obtain ⟨x', h1, h2⟩ := shape_below hBw hb.wf hy n e.symm
      rw [← hA x' (hn.trans h1) (hkind h2.symm)]; exact h1
  · exact fun m hm e => hB m hm (hkind e)
  · exact fun n hn e => hA n hn (hkind e)
  · intro n hn hna hne
    rw [hb.isOpaque_at hob (hb.lt_of_anc hn)]
    exact hw.aboveOld _ (hb.ganc hwo hn) (hb.anc_image hwo hna) fun e => hne (hb.ginj hwo hn a ht.ancA e)
  · intro m hm hmy hne
    rw [diffable_isOpaque]
    exact hw.aboveNew m (anc_of_diffable hm) (anc_of_diffable hmy) hne
  · exact fun n m hn hm e => hap.tree h hob hb hn hm e
  · exact fun _ => hB
  · exact fun _ => hA

theorem Staged.virtual_elem {D : Document} {b : Nat} {E : Arena NodeData} {eb : Nat} (hs : Staged N D b E eb)
    (hso : D.Sound) (hno : D.NamesIn N b) : ((Staged.virtual N D b E eb).data eb).kind.IsElement ∧
      ((Staged.virtual N D b E eb).data eb).kind.Clean := by
  have hsim := hs.virtual_sim hso hno (n := eb) .refl
  obtain ⟨tag, attrs, hke⟩ := hs.elem
  unfold DataSim at hsim
  rw [hke] at hsim
  cases hkv : ((Staged.virtual N D b E eb).data eb).kind with
  | element t a =>
    rw [hkv] at hsim
    obtain ⟨_, _, _, _, h4⟩ := hsim
    exact ⟨⟨_, _, rfl⟩, h4⟩
  | text s => rw [hkv] at hsim; cases (show NodeKind.element tag attrs = .text s from hsim)
  | comment s => rw [hkv] at hsim; cases (show NodeKind.element tag attrs = .comment s from hsim)
  | document => rw [hkv] at hsim; cases (show NodeKind.element tag attrs = .document from hsim)

/-- One update of a page with widgets. -/
theorem Staged.update (dom : WebDom) (h : Comparable old new ob nb)
    (hc : NoCollision hashNode (buildTree old ob) (diffable new) nb)
    (ho : OpaqueAgree hashNode old new ob nb) (hob : old.ClearBody ob) (hnb : new.ClearBody nb)
    (hf : NoMoveBelowSelf hashNode old new ob nb ∨ NoInversion hashNode old new ob nb)
    (hN : PlainNames N) (hno : old.NamesIn N ob) (hnn : new.NamesIn N nb)
    (hk : new.AllIn dom.KeepsTag dom.KeepsName nb) {E : Arena NodeData} {eb : Nat} (hlow : E.Lower)
    (hs : Staged N old ob E eb) {g0 : Nat → Nat} (hb : Built old ob (buildTree old ob) g0) :
    ∃ ps rs E', diff hashNode old new = .ok (ps ++ rs) ∧ (∀ P ∈ rs, P.isReport = true) ∧
      ps.map Patch.wire = ps ∧ (∀ i, ∃ Ei, dom.applyPatches eb E (ps.take i) = .ok Ei ∧
        ∀ x u, Spot old.arena E ob eb x u → (old.arena.data x).isOpaque = true → SameInside E Ei u) ∧
      dom.applyPatches eb E ps = .ok E' ∧ Staged N new nb E' eb ∧ E'.Lower ∧
      ∀ a y u, (a, y) ∈ (diffMatching (oldTree hashNode old ob) (newTree hashNode new nb)).pairs →
        Spot old.arena E ob eb (g0 a) u → Spot new.arena E' nb eb y u := by
  have hso := h.old.sound
  have hwo := hso.arena.wf
  have hwB := Built.diffable_wf h.new.sound.arena.wf
  have hpl := h.plan hashNode hc ho hb
  have hmir := hs.mirror hso hno (TextEdit.no_document h.old)
  obtain ⟨he, hcl⟩ := hs.virtual_elem hso hno
  have hd := hb.docRel_of_mirror hso.arena.leafy hmir (fun b e => if_neg (by rw [e]; simp)) hob he hcl
  have hA0 := hs.agree hso hno
  obtain ⟨S0, ps, w, g, _, e, ht, hg, hm, _⟩ := h.run hc ho hf
    (lawful_swap (fun _ => Document.new) eb) hd
    (slots := Arena.upd (fun _ => none) 0 (some eb)) (by simp)
  have hnames := h.script_names hc ho hnn
  have hkeep := C31_names_from_new dom h hc ho hk e
  -- where the nodes of the tree are on the page
  have hat : ∀ a u, Spot old.arena E ob eb (g0 a) u → Staged.where_ old ob E eb (g0 a) = u :=
    fun a u hu => Staged.where_eq hwo hu
  have hinit : Unharmed (Staged.virtual N old ob E eb)
      (Veil (buildTree old ob) (Staged.virtual N old ob E eb) (fun n => Staged.where_ old ob E eb (g0 n)))
      (Veiled (buildTree old ob) (Staged.virtual N old ob E eb) (fun n => Staged.where_ old ob E eb (g0 n)))
      eb (Staged.virtual N old ob E eb) (Arena.upd (fun _ => none) 0 (some eb)) :=
    ⟨hd.wf, Nat.le_refl _, by simp, fun _ _ => rfl, fun _ _ => rfl⟩
  have hc0 : ∀ b n, ((diffMatching (oldTree hashNode old ob) (newTree hashNode new nb)).getA b).map
      (fun n => Staged.where_ old ob E eb (g0 n)) = some n →
      Veil (buildTree old ob) (Staged.virtual N old ob E eb) (fun n => Staged.where_ old ob E eb (g0 n)) n →
      ((diffable new).data b).props.isOpaque = true := by
    intro b n hbn hv
    obtain ⟨a, ha, rfl⟩ := Option.map_eq_some_iff.1 hbn
    have hab := (hpl.getA a b).1 ha
    have hlt := (hpl.lt a b hab).1
    rw [← hpl.opq a b hab]
    exact hd.veil_opaque hb.wf (hb.reach a hlt) ⟨hlt, (hpl.clear a b hab).1⟩ hv
  have key : ∀ ps1 ps2, ps = ps1 ++ ps2 → ∃ E1, dom.applyPatches eb E ps1 = .ok E1 ∧
      Wasm.applyPatches eb E ps1 = .ok E1 ∧
      ∀ x u, Spot old.arena E ob eb x u → (old.arena.data x).isOpaque = true → SameInside E E1 u := by
    intro ps1 ps2 eps
    obtain ⟨ops1, ops2, w1, eops, ht1, _⟩ := ht.split ps1 ps2 eps
    have hU := ht1.unharmed (T := fun b => ((diffable new).data b).props.isOpaque = true)
      (hd.enclosed hb.wf) (lawful_swap (fun _ => Document.new) eb)
      (fun op hop => hpl.shuns (hashNode := hashNode) hd (show op ∈ script hashNode old new ob nb by
        rw [eops]; simp [hop])) hinit hc0
    obtain ⟨φ, L, E1, t1, e1, hA1, hx⟩ := ht1.browserSwap hwB hN
      (fun op hop => hnames op (by rw [eops]; simp [hop])) hA0
    have e2 : Wasm.applyPatches eb E ps1 = .ok E1 := by
      simp only [Wasm.applyPatches, e1, bind, Except.bind]
    refine ⟨E1, ?_, e2, ?_⟩
    · rw [WebDom.applyPatches_eq hlow fun P hP => hkeep P (by rw [eps]; simp [hP])]
      exact e2
    · intro x u hxu hxo n hn
      obtain ⟨a, hal, rfl⟩ := hb.surj hwo (hxu.ancA hwo)
      have hra := hb.reach a hal
      have hold : Plan.Old (buildTree old ob) a :=
        ⟨hal, fun e => hxu.not_inside hwo ((hb.inside_iff hwo hob hra).1 e)⟩
      have hopa : ((buildTree old ob).data a).props.isOpaque = true := by
        rw [hb.isOpaque_at hob hal]; exact hxo
      have hu := hat a u hxu
      have hveil : Veil (buildTree old ob) (Staged.virtual N old ob E eb)
          (fun n => Staged.where_ old ob E eb (g0 n)) n :=
        ⟨a, hra, hold, hopa, by simp only [hu]; exact Staged.virtual_anc.2 hn⟩
      have hLn : E.Anc eb n := (hxu.ancE hs.wf).trans hn
      obtain ⟨x1, x2⟩ := hx n hLn
      constructor
      · have h1 := hA1.kids n x1
        rw [hU.children n hveil, x2] at h1
        rw [id] at h1
        rw [h1]
        show (E.children n).map φ = E.children n
        conv => rhs; rw [← List.map_id (E.children n)]
        apply List.map_congr_left
        intro c hcn
        exact (hx c (.step ((hs.wf.mem_iff _ _).1 hcn) hLn)).2
      · intro hne
        have hveiled : Veiled (buildTree old ob) (Staged.virtual N old ob E eb)
            (fun n => Staged.where_ old ob E eb (g0 n)) n :=
          ⟨a, hra, hold, hopa, by simp only [hu]; exact Staged.virtual_anc.2 hn, by simp only [hu]; exact hne⟩
        have h1 := hA1.data n x1
        unfold DataSim at h1
        rw [hU.data n hveiled, x2] at h1
        have h2 := hs.virtual_sim hso hno hLn
        unfold DataSim at h2
        exact h1.looks.trans h2.looks.symm
  obtain ⟨φ, L, E', t', e1, hA1, hx⟩ := ht.browserSwap hwB hN hnames hA0
  have e2 : Wasm.applyPatches eb E ps = .ok E' := by
    simp only [Wasm.applyPatches, e1, bind, Except.bind]
  have hbody : ∀ b, new.arena.Anc nb b → ((diffable new).data b).props.isOpaque = false → Plan.bodyOf (diffable new)
      (diffMatching (oldTree hashNode old ob) (newTree hashNode new nb)) (Staged.virtual N old ob E eb)
      (fun n => Staged.where_ old ob E eb (g0 n)) b = none := by
    intro b _ hbo
    unfold Plan.bodyOf
    rw [if_neg (by rw [hbo]; simp)]
  have hwn := h.new.sound.arena.wf
  refine ⟨ps, _, E', e, reports_isReport S0, ht.wire hwB hN hnames, ?_, ?_, ?_, ?_, ?_⟩
  · intro i
    obtain ⟨E1, k1, _, k3⟩ := key (ps.take i) (ps.drop i) (List.take_append_drop i ps).symm
    exact ⟨E1, k1, k3⟩
  · rw [WebDom.applyPatches_eq hlow fun P hP => hkeep P (by simp [hP])]
    exact e2
  · refine hm.staged hA1 hbody hwn (TextEdit.no_document h.new) hnb ?_
    obtain ⟨tag, attrs, e⟩ := he
    rw [e]
    exact ⟨_, _, rfl⟩
  · exact WebDom.lower_applyPatches hlow (fun P hP => hkeep P (by simp [hP])) e2
  · intro a y u hab hu
    have hgA := (hpl.getA a y).2 hab
    have hni : y ∉ insertedNodes (script hashNode old new ob nb) := by
      intro hy
      unfold insertedNodes at hy
      rw [List.mem_filterMap] at hy
      obtain ⟨o, ho, e⟩ := hy
      cases o with
      | insert b' pb pos k =>
        simp only [Option.some.injEq] at e
        subst e
        have := ((C10_inserts_are_the_unmatched hwB _ _ _ _ _).1 ho).2.1
        rw [hgA] at this
        cases this
      | _ => cases e
    have hyn := anc_of_diffable (hpl.lt a y hab).2
    have hyi := (hpl.clear a y hab).2
    have e1 := hg y hyn hyi
    rw [ht.c_stable hni] at e1
    simp only [hgA, Option.map_some, Option.some.injEq, hat a u hu] at e1
    have := (hm.spot hA1 hbody hwn hyn hyi).2
    rw [← e1, (hx u (hu.ancE hs.wf)).2] at this
    exact this

/-- **C78**, partial: a page shows the old document, and scripts have filled its opaque elements with whatever
they like. The patches of `diff`, up to the final reports, all apply. After each of them, the content of every
opaque element that was on the page is as the scripts left it: the same DOM nodes in the same order, with the
same attributes and texts. At the end the page shows the new document, again apart from the content of opaque
elements, and an opaque element that is the only one of its name is where the new document has it: it is the
same DOM node.

Missing from the full statement: elements of one name of which some are opaque and others not, where the content
is lost (`C78_violated`), several opaque elements of one name, which may swap their keys
(`C78_violated_by_keys`), the reports at the end, hash collisions, and edit scripts with a Move of a node below
itself. -/
theorem C78_widgets_survive_partial (dom : WebDom) (h : Comparable old new ob nb)
    (hc : NoCollision hashNode (buildTree old ob) (diffable new) nb) (hap : Apart old new ob nb)
    (hob : old.ClearBody ob) (hnb : new.ClearBody nb)
    (hf : NoMoveBelowSelf hashNode old new ob nb ∨ NoInversion hashNode old new ob nb)
    (hN : PlainNames N) (hno : old.NamesIn N ob) (hnn : new.NamesIn N nb)
    (hk : new.AllIn dom.KeepsTag dom.KeepsName nb) {E : Arena NodeData} {eb : Nat} (hlow : E.Lower)
    (hs : Staged N old ob E eb) :
    ∃ ps rs E', diff hashNode old new = .ok (ps ++ rs) ∧ (∀ P ∈ rs, P.isReport = true) ∧
      (∀ i, ∃ Ei, dom.applyPatches eb E (ps.take i) = .ok Ei ∧
        ∀ x u, Spot old.arena E ob eb x u → (old.arena.data x).isOpaque = true → SameInside E Ei u) ∧
      dom.applyPatches eb E ps = .ok E' ∧ Staged N new nb E' eb ∧ E'.Lower ∧
      ∀ x y u, OnlyWidget old new ob nb x y → Spot old.arena E ob eb x u → Spot new.arena E' nb eb y u := by
  obtain ⟨g, hb⟩ := buildTree_spec old h.old.sound.arena.leafy ob
  obtain ⟨ps, rs, E', h1, h2, _, h3, h4, h5, h6, h7⟩ := hs.update dom h hc (hap.agree h hob hc) hob hnb hf hN hno hnn
    hk hlow hb
  refine ⟨ps, rs, E', h1, h2, h3, h4, h5, h6, fun x y u hw hu => ?_⟩
  obtain ⟨a, _, rfl, hm⟩ := hw.matched h hc hob hap hb
  exact h7 a y u hm hu

/-! ### Any number of updates -/

theorem NodeKind.Looks.refl (k : NodeKind) : k.Looks k := by
  cases k <;> simp [NodeKind.Looks]

theorem SameInside.refl (E : Arena NodeData) (u : Nat) : SameInside E E u :=
  fun _ _ => ⟨rfl, fun _ => .refl _⟩

theorem SameInside.anc {E E' : Arena NodeData} {u : Nat} (h : SameInside E E' u) (hE : E.WF) (hE' : E'.WF) {n : Nat}
    (hn : E.Anc u n) : E'.Anc u n := by
  induction hn with
  | refl => exact .refl
  | @step n p hp hap ih =>
    refine .step ((hE'.mem_iff _ _).1 ?_) ih
    rw [(h p hap).1]
    exact (hE.mem_iff _ _).2 hp

theorem SameInside.trans {E E' E'' : Arena NodeData} {u : Nat} (h : SameInside E E' u) (h' : SameInside E' E'' u)
    (hE : E.WF) (hE' : E'.WF) : SameInside E E'' u := by
  intro n hn
  obtain ⟨h1, h2⟩ := h n hn
  obtain ⟨h3, h4⟩ := h' n (h.anc hE hE' hn)
  exact ⟨h3.trans h1, fun e => (h4 e).trans (h2 e)⟩

/-- What is assumed of two versions that follow each other, of which `x` and `y` is the only widget of its
name. -/
structure WidgetStep (dom : WebDom) (hashNode : HKind → Option Str → List H → H) (N : QualName → Prop)
    (old new : Document) (ob nb x y : Nat) : Prop where
  comparable : Comparable old new ob nb
  noCollision : NoCollision hashNode (buildTree old ob) (diffable new) nb
  apart : Apart old new ob nb
  clearOld : old.ClearBody ob
  clearNew : new.ClearBody nb
  moves : NoMoveBelowSelf hashNode old new ob nb ∨ NoInversion hashNode old new ob nb
  namesOld : old.NamesIn N ob
  namesNew : new.NamesIn N nb
  kept : new.AllIn dom.KeepsTag dom.KeepsName nb
  widget : OnlyWidget old new ob nb x y

/-- Versions of a page, with their bodies and the node of the widget in each. -/
inductive WidgetHistory (dom : WebDom) (hashNode : HKind → Option Str → List H → H) (N : QualName → Prop) :
    Document → Nat → Nat → List (Document × Nat × Nat) → Prop
  | nil (old : Document) (ob x : Nat) : WidgetHistory dom hashNode N old ob x []
  | cons {old new : Document} {ob nb x y : Nat} {vs : List (Document × Nat × Nat)}
      (step : WidgetStep dom hashNode N old new ob nb x y) (rest : WidgetHistory dom hashNode N new nb y vs) :
      WidgetHistory dom hashNode N old ob x ((new, nb, y) :: vs)

/-- The page `E` becomes `E'` when the patches from each version to the next are applied, except for the
reports at the end of each patch list. -/
inductive Updates (dom : WebDom) (hashNode : HKind → Option Str → List H → H) (eb : Nat) :
    Document → List Document → Arena NodeData → Arena NodeData → Prop
  | nil (D : Document) (E : Arena NodeData) : Updates dom hashNode eb D [] E E
  | cons {old new : Document} {vs : List Document} {ps rs : List Patch} {E E1 E2 : Arena NodeData}
      (patches : diff hashNode old new = .ok (ps ++ rs)) (reports : ∀ P ∈ rs, P.isReport = true)
      (apply : dom.applyPatches eb E ps = .ok E1) (rest : Updates dom hashNode eb new vs E1 E2) :
      Updates dom hashNode eb old (new :: vs) E E2

/-- **C78**, partial, for any number of updates: the widget stays the same DOM node with the same content. At
the end it is at its place in the last version. Missing: as above. -/
theorem C78_widget_survives_history_partial (dom : WebDom) (hN : PlainNames N) {vs : List (Document × Nat × Nat)}
    {ob x : Nat} (hv : WidgetHistory dom hashNode N old ob x vs) {E : Arena NodeData} {eb u : Nat} (hlow : E.Lower)
    (hs : Staged N old ob E eb) (hu : Spot old.arena E ob eb x u) :
    ∃ E', Updates dom hashNode eb old (vs.map (·.1)) E E' ∧ SameInside E E' u ∧
      Staged N ((vs.getLast?.map (·.1)).getD old) ((vs.getLast?.map (·.2.1)).getD ob) E' eb ∧
      Spot ((vs.getLast?.map (·.1)).getD old).arena E' ((vs.getLast?.map (·.2.1)).getD ob) eb
        ((vs.getLast?.map (·.2.2)).getD x) u := by
  induction hv generalizing E with
  | nil old ob x => exact ⟨E, .nil _ _, .refl _ _, hs, hu⟩
  | @cons old new ob nb x y vs st rest ih =>
    obtain ⟨ps, rs, E1, h1, h2, h3, h4, h5, h6, h7⟩ := C78_widgets_survive_partial dom st.comparable
      st.noCollision st.apart st.clearOld st.clearNew st.moves hN st.namesOld st.namesNew st.kept hlow hs
    obtain ⟨E2, g1, g2, g3, g4⟩ := ih h6 h5 (h7 x y u st.widget hu)
    obtain ⟨Ei, k1, k2⟩ := h3 ps.length
    rw [List.take_length, h4] at k1
    cases k1
    refine ⟨E2, .cons h1 h2 h4 g1, (k2 x u hu st.widget.opaqueOld).trans g2 hs.wf h5.wf, ?_⟩
    cases vs with
    | nil => exact ⟨g3, g4⟩
    | cons v vs =>
      rw [List.getLast?_cons_cons]
      obtain ⟨l, hl⟩ : ∃ l, (v :: vs).getLast? = some l := ⟨_, List.getLast?_eq_some_getLast (by simp)⟩
      rw [hl] at g3 g4 ⊢
      exact ⟨g3, g4⟩

/-! ### Concrete cases -/

/-- Checker for `NodeKind.Looks`. -/
def looksB (k k' : NodeKind) : Bool :=
  match k, k' with
  | .element tag attrs, .element tag' attrs' => decide (tag = tag') && decide (attrs.written = attrs'.written)
  | .text s, .text s' => decide (s = s')
  | .comment s, .comment s' => decide (s = s')
  | .document, .document => true
  | _, _ => false

theorem looksB_spec {k k' : NodeKind} (h : looksB k k' = true) : k.Looks k' := by
  cases k <;> cases k' <;> simp_all [looksB, NodeKind.Looks]

/-- Checker for the children in `Shows`. -/
def showsKidsB (A E : Arena NodeData) (f : Nat → Nat → Bool) (a e : Nat) : Bool :=
  decide ((A.children a).length ≤ (E.children e).length) &&
  ((E.children e).drop (A.children a).length).all (fun j => decide ((E.data j).kind = .text [])) &&
  ((A.children a).zip (E.children e)).all fun p => f p.1 p.2

/-- Checker for `Shows`. -/
def showsB (A E : Arena NodeData) : Nat → Nat → Nat → Bool
  | 0, _, _ => false
  | k + 1, a, e => looksB (E.data e).kind (A.data a).kind &&
    ((A.data a).isOpaque || showsKidsB A E (showsB A E k) a e)

theorem showsKidsB_spec {A E : Arena NodeData} {f : Nat → Nat → Bool} {a e : Nat}
    (h : showsKidsB A E f a e = true) : (A.children a).length ≤ (E.children e).length ∧
      (∀ j ∈ (E.children e).drop (A.children a).length, (E.data j).kind = .text []) ∧
      ∀ i c d : Nat, (A.children a)[i]? = some c → (E.children e)[i]? = some d → f c d = true := by
  simp only [showsKidsB, Bool.and_eq_true, decide_eq_true_eq, List.all_eq_true] at h
  refine ⟨h.1.1, h.1.2, fun i c d hc hd => h.2 (c, d) (List.mem_of_getElem? (i := i) ?_)⟩
  rw [List.getElem?_zip_eq_some]
  exact ⟨hc, hd⟩

theorem showsB_spec {A E : Arena NodeData} : ∀ (k a e : Nat), showsB A E k a e = true → Shows A E a e
  | 0, _, _, h => by cases h
  | k + 1, a, e, h => by
    simp only [showsB, Bool.and_eq_true, Bool.or_eq_true] at h
    have hk : (A.data a).isOpaque = false → showsKidsB A E (showsB A E k) a e = true := by
      intro ho
      rcases h.2 with h | h
      · rw [ho] at h; cases h
      · exact h
    exact .node (looksB_spec h.1) (fun ho => (showsKidsB_spec (hk ho)).1)
      (fun ho => (showsKidsB_spec (hk ho)).2.1)
      (fun ho i c d hc hd => showsB_spec k c d ((showsKidsB_spec (hk ho)).2.2 i c d hc hd))

/-- Checker for `Staged` with unprefixed names, for a page that is itself a document. -/
def stagedB (D P : Document) : Bool :=
  (showsKidsB D.arena P.arena (showsB D.arena P.arena 9) 2 2)

theorem staged_of {cs ps : List Html} (hp : Comparable (.ofForest ps) (.ofForest ps) 2 2)
    (hb : (Document.ofForest ps).NamesIn bareName 2)
    (h : stagedB (.ofForest cs) (.ofForest ps) = true) :
    Staged bareName (.ofForest cs) 2 (Document.ofForest ps).arena 2 := by
  have hso := hp.old.sound.arena
  obtain ⟨hbm, battrs, hbk⟩ := Document.body_spec hp.old.body
  have hs := showsKidsB_spec h
  refine ⟨hso.wf, (hso.wf.lt_of_parent _ _ ((hso.wf.mem_iff _ _).1 hbm)).1,
    fun n s _ e => hso.leaf n (.inl ⟨s, e⟩), ⟨_, _, hbk⟩, ?_, hs.1, hs.2.1,
    fun i c d hc hd => showsB_spec 9 c d (hs.2.2 i c d hc hd)⟩
  intro n tag attrs hn hk
  have : (Document.ofForest ps).arena.Anc 2 n := by
    rcases hn with rfl | ⟨x, u, h1, _, h3, _⟩
    · exact .refl
    · exact (h1.ancE hso.wf).trans h3
  exact ⟨attrs, rfl, hb n tag attrs this hk, hso.uniq n tag attrs hk⟩

/-- Checker for `Apart`. -/
def apartB (D E : Document) : Bool :=
  (D.arena.descendants 2).all fun n => (E.arena.descendants 2).all fun m =>
    !sameTypeB (D.arena.data n) (E.arena.data m) || (D.arena.data n).isOpaque == (E.arena.data m).isOpaque

theorem sameTypeB_of {d e : NodeData} (h : d.SameType e) : sameTypeB d e = true := by
  obtain ⟨k, ns⟩ := d
  obtain ⟨k', ns'⟩ := e
  cases k <;> cases k' <;> simp_all [sameTypeB, NodeData.SameType]

theorem apart_of {D E : Document} (hD : D.arena.WF) (hE : E.arena.WF) (h : apartB D E = true) :
    Apart D E 2 2 := by
  intro n m hn hm hs
  simp only [apartB, List.all_eq_true, Bool.or_eq_true, Bool.not_eq_true', beq_iff_eq] at h
  rcases h n ((hD.mem_descendants _ _).2 hn) m ((hE.mem_descendants _ _).2 hm) with h | h
  · rw [sameTypeB_of hs] at h; cases h
  · exact h

/-- Checker for `OnlyWidget` without the trail, for widgets that are children of the body. -/
def onlyB (D E : Document) (x y : Nat) : Bool :=
  (D.arena.data x).isOpaque && (E.arena.data y).isOpaque &&
  (D.arena.descendants 2).all (fun n => !sameTypeB (D.arena.data n) (E.arena.data y) || decide (n = x)) &&
  (E.arena.descendants 2).all (fun m => !sameTypeB (D.arena.data x) (E.arena.data m) || decide (m = y)) &&
  (D.arena.descendants 2).all (fun n => decide (n = x) || !(D.arena.data n).isOpaque) &&
  (E.arena.descendants 2).all (fun m => decide (m = y) || !(E.arena.data m).isOpaque)

theorem only_of {D E : Document} {x y : Nat} (hD : D.arena.WF) (hE : E.arena.WF) (h : onlyB D E x y = true)
    (ht : SameTrail D.arena E.arena 2 2 x y) : OnlyWidget D E 2 2 x y := by
  simp only [onlyB, Bool.and_eq_true, List.all_eq_true, Bool.or_eq_true, Bool.not_eq_true',
    decide_eq_true_eq] at h
  obtain ⟨⟨⟨⟨⟨h1, h2⟩, h3⟩, h4⟩, h5⟩, h6⟩ := h
  refine ⟨h1, h2, fun n hn hs => ?_, fun m hm hs => ?_, fun n hn _ hne => ?_, fun m hm _ hne => ?_, ht⟩
  · rcases h3 n ((hD.mem_descendants _ _).2 hn) with h | h
    · rw [sameTypeB_of hs] at h; cases h
    · exact h
  · rcases h4 m ((hE.mem_descendants _ _).2 hm) with h | h
    · rw [sameTypeB_of hs] at h; cases h
    · exact h
  · exact (h5 n ((hD.mem_descendants _ _).2 hn)).resolve_left hne
  · exact (h6 m ((hE.mem_descendants _ _).2 hm)).resolve_left hne

/-- A page with a map that a script draws. -/
def shop1 : List Html :=
  [ex "h1" [] [.text "Shop".toList], ex "p" [] [.text "Open".toList],
    ex "my-map" [("data-hotmeal-opaque", "map")] []]
/-- The next version of the page, with the map first. -/
def shop2 : List Html :=
  [ex "my-map" [("data-hotmeal-opaque", "map"), ("class", "top")] [], ex "p" [] [.text "Closed".toList],
    ex "h1" [] [.text "Shop".toList]]
/-- What is on the screen: the first version of the page, with the map that the script has drawn and a surplus
empty text. -/
def shopPage : List Html :=
  [ex "h1" [] [.text "Shop".toList], ex "p" [] [.text "Open".toList],
    ex "my-map" [("data-hotmeal-opaque", "map")] [ex "canvas" [("width", "9")] [], .text "N".toList],
    .text []]

/-- The step from `shop1` to `shop2` meets the hypotheses of C78, and the map is the only widget. -/
theorem shop_step : WidgetStep WebDom.lenient Shape.node bareName (.ofForest shop1) (.ofForest shop2) 2 2 7 3 := by
  have h1 := ofForest_valid shop1 (by decide +kernel)
  have h2 := ofForest_valid shop2 (by decide +kernel)
  refine ⟨comparable_ofForest_tidy (o := true) (by decide +kernel) (by decide +kernel), noCollision_shape _ _ _,
    apart_of h1.wf h2.wf (by decide +kernel), by decide +kernel, by decide +kernel,
    .inl (noMoveBelowSelf_of_movesSafe (by decide +kernel)),
    namesIn_of_bareB h1.wf (by decide +kernel) (by decide +kernel),
    namesIn_of_bareB h2.wf (by decide +kernel) (by decide +kernel),
    allIn_of_keptB h2.wf (by decide +kernel) (by decide +kernel),
    only_of h1.wf h2.wf (by decide +kernel) (.child .root ?_ ?_ ?_)⟩
  · decide +kernel
  · decide +kernel
  · exact sameTypeB_spec _ _ (by decide +kernel)

/-- The page on the screen shows `shop1`, and the map is node 7 of it. -/
theorem shop_staged : Staged bareName (.ofForest shop1) 2 (Document.ofForest shopPage).arena 2 ∧
    (Document.ofForest shopPage).arena.Lower ∧
    Spot (Document.ofForest shop1).arena (Document.ofForest shopPage).arena 2 2 7 7 := by
  have h1 := ofForest_valid shopPage (by decide +kernel)
  refine ⟨staged_of (comparable_ofForest_tidy (o := true) (by decide +kernel) (by decide +kernel))
    (namesIn_of_bareB h1.wf (by decide +kernel) (by decide +kernel)) (by decide +kernel),
    lower_ofForest (by decide +kernel), .child (i := 2) .root ?_ ?_ ?_⟩
  · decide +kernel
  · decide +kernel
  · decide +kernel

/-- The hypotheses of the C78 theorems hold for this page and a history of two versions. -/
example : PlainNames bareName ∧
    WidgetHistory WebDom.lenient Shape.node bareName (.ofForest shop1) 2 7 [(.ofForest shop2, 2, 3)] ∧
    Staged bareName (.ofForest shop1) 2 (Document.ofForest shopPage).arena 2 ∧
    (Document.ofForest shopPage).arena.Lower ∧
    Spot (Document.ofForest shop1).arena (Document.ofForest shopPage).arena 2 2 7 7 :=
  ⟨plainNames_bare, .cons shop_step (.nil _ _ _), shop_staged⟩

/-- What the page looks like after the update. -/
example : (match diff Shape.node (.ofForest shop1) (.ofForest shop2) with
    | .ok ps => match WebDom.lenient.applyPatches 2 (Document.ofForest shopPage).arena ps with
      | .ok E => decide ((E.tree 2).inner = ("<my-map data-hotmeal-opaque=\"map\" class=\"top\">" ++
          "<canvas width=\"9\"></canvas>N</my-map><p>Closed</p><h1>Shop</h1>").toList)
      | .error _ => false
    | .error _ => false) = true := by decide +kernel

/-- A `div` that is opaque. -/
def opaqueDiv (key : String) (cs : List Html) : Html := ex "div" [("data-hotmeal-opaque", key)] cs

/-- **C78** is violated when an opaque `div` is followed by an ordinary one. The widget is the same in both
versions and only the text of the other `div` changes, but the two `div`s are confused. The content of the
widget, which a script has drawn, is gone. -/
theorem C78_violated :
    Staged bareName (.ofForest [opaqueDiv "map" [], ex "div" [] [.text "x".toList]]) 2
      (Document.ofForest [opaqueDiv "map" [.text "drawn".toList], ex "div" [] [.text "x".toList]]).arena 2 ∧
    (match diff Shape.node (.ofForest [opaqueDiv "map" [], ex "div" [] [.text "x".toList]])
        (.ofForest [opaqueDiv "map" [], ex "div" [] [.text "y".toList]]) with
    | .ok ps => match WebDom.lenient.applyPatches 2 (Document.ofForest
          [opaqueDiv "map" [.text "drawn".toList], ex "div" [] [.text "x".toList]]).arena
          (ps.filter fun P => !P.isReport) with
      | .ok E => decide ((E.tree 2).inner =
          "<div data-hotmeal-opaque=\"map\"></div><div>y</div>".toList)
      | .error _ => false
    | .error _ => false) = true := by
  have h1 := ofForest_valid [opaqueDiv "map" [.text "drawn".toList], ex "div" [] [.text "x".toList]]
    (by decide +kernel)
  exact ⟨staged_of (comparable_ofForest_tidy (o := true) (by decide +kernel) (by decide +kernel))
    (namesIn_of_bareB h1.wf (by decide +kernel) (by decide +kernel)) (by decide +kernel), by decide +kernel⟩

/-- **C78** is violated when two widgets of the same name change places: only their keys are exchanged, and no
report is sent, so that each key ends up with the content that a script drew for the other one. -/
theorem C78_violated_by_keys :
    Staged bareName (.ofForest [opaqueDiv "map" [], opaqueDiv "chart" []]) 2
      (Document.ofForest [opaqueDiv "map" [.text "MAP".toList], opaqueDiv "chart" [.text "CHART".toList]]).arena 2 ∧
    (match diff Shape.node (.ofForest [opaqueDiv "map" [], opaqueDiv "chart" []])
        (.ofForest [opaqueDiv "chart" [], opaqueDiv "map" []]) with
    | .ok ps => decide (ps.length = 2) && ps.all (fun P => !P.isReport) &&
      match WebDom.lenient.applyPatches 2 (Document.ofForest
          [opaqueDiv "map" [.text "MAP".toList], opaqueDiv "chart" [.text "CHART".toList]]).arena ps with
      | .ok E => decide ((E.tree 2).inner = ("<div data-hotmeal-opaque=\"chart\">MAP</div>" ++
          "<div data-hotmeal-opaque=\"map\">CHART</div>").toList)
      | .error _ => false
    | .error _ => false) = true := by
  have h1 := ofForest_valid
    [opaqueDiv "map" [.text "MAP".toList], opaqueDiv "chart" [.text "CHART".toList]] (by decide +kernel)
  exact ⟨staged_of (comparable_ofForest_tidy (o := true) (by decide +kernel) (by decide +kernel))
    (namesIn_of_bareB h1.wf (by decide +kernel) (by decide +kernel)) (by decide +kernel), by decide +kernel⟩

end Hotmeal
