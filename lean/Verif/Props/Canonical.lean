import Verif.Lemmas.TwinScript

set_option autoImplicit false
set_option linter.unusedSectionVars false

/-!
# C59: the patches depend on the two bodies only
-/

namespace Hotmeal

theorem Place.ancA {α β : Type} {A : Arena α} {B : Arena β} {ra rb a b : Nat} (hA : A.WF)
    (h : Place A B ra rb a b) : A.Anc ra a := by
  induction h with
  | root => exact .refl
  | child _ ha _ ih => exact .step ((hA.mem_iff _ _).1 (List.mem_of_getElem? ha)) ih

theorem Place.symm {α β : Type} {A : Arena α} {B : Arena β} {ra rb a b : Nat}
    (h : Place A B ra rb a b) : Place B A rb ra b a := by
  induction h with
  | root => exact .root
  | child _ ha hb ih => exact .child ih hb ha

theorem Place.funB {α β : Type} {A : Arena α} {B : Arena β} {ra rb a b : Nat} (hA : A.WF)
    (h : Place A B ra rb a b) : ∀ b', Place A B ra rb a b' → b = b' := by
  induction h with
  | root =>
    intro b' h'
    cases h' with
    | root => rfl
    | child hc ha _ =>
      exact absurd (hc.ancA hA) (not_anc_parent hA ((hA.mem_iff _ _).1 (List.mem_of_getElem? ha)))
  | @child p q i a b hc ha hb ih =>
    intro b' h'
    have hp := (hA.mem_iff _ _).1 (List.mem_of_getElem? ha)
    cases h' with
    | root => exact absurd (hc.ancA hA) (not_anc_parent hA hp)
    | child hc' ha' hb' =>
      have hp' := (hA.mem_iff _ _).1 (List.mem_of_getElem? ha')
      rw [hp] at hp'; cases hp'
      have := ih _ hc'
      subst this
      have := List.nodup_getElem?_inj (hA.nodup _) ha ha'
      subst this
      rw [hb] at hb'; exact Option.some.inj hb'

/-- Equal subtrees are renamings of each other. -/
theorem Arena.Alike.renaming {α : Type} {A B : Arena α} {ra rb : Nat} (hA : A.WF) (hB : B.WF)
    (h : Arena.Alike Eq A B ra rb) : ∃ g : Nat → Nat, g ra = rb ∧
      (∀ n, A.Anc ra n → Arena.Alike Eq A B n (g n) ∧ B.children (g n) = (A.children n).map g ∧
        B.Anc rb (g n)) ∧ ∀ m n, A.Anc ra m → A.Anc ra n → g m = g n → m = n := by
  have hex : ∀ n, ∃ m, A.Anc ra n → Place A B ra rb n m ∧ Arena.Alike Eq A B n m := by
    intro n
    by_cases hn : A.Anc ra n
    · suffices ∃ m, Place A B ra rb n m ∧ Arena.Alike Eq A B n m by
        obtain ⟨m, hm⟩ := this; exact ⟨m, fun _ => hm⟩
      exact h.placeA hA hn
    · exact ⟨0, fun h => absurd h hn⟩
  obtain ⟨g, hg⟩ := Classical.axiomOfChoice hex
  refine ⟨g, ?_, fun n hn => ⟨(hg n hn).2, ?_, (hg n hn).1.symm.ancA hB⟩, fun m n hm hn e => ?_⟩
  · exact ((hg ra .refl).1.funB hA _ .root)
  · apply List.ext_getElem?
    intro i
    rw [List.getElem?_map]
    have len : (A.children n).length = (B.children (g n)).length := by
      cases (hg n hn).2 with | node _ len _ => exact len
    cases e : (A.children n)[i]? with
    | none =>
      rw [List.getElem?_eq_none_iff] at e
      rw [List.getElem?_eq_none (by omega)]; rfl
    | some c =>
      have hlt := (List.getElem?_eq_some_iff.1 e).1
      obtain ⟨d, hd⟩ : ∃ d, (B.children (g n))[i]? = some d := ⟨_, List.getElem?_eq_getElem (by omega)⟩
      rw [hd]
      have hc := (hg c (.step ((hA.mem_iff _ _).1 (List.mem_of_getElem? e)) hn)).1
      rw [Option.map_some, hc.funB hA _ (.child (hg n hn).1 e hd)]
  · have h1 := (hg m hm).1.symm
    rw [e] at h1
    exact h1.funB hB _ (hg n hn).1.symm

/-- The contents of the two nodes are the same; the nodes themselves may have other attributes. -/
structure SameInner (D E : Document) (b c : Nat) : Prop where
  len : (D.arena.children b).length = (E.arena.children c).length
  kids : ∀ i x y : Nat, (D.arena.children b)[i]? = some x → (E.arena.children c)[i]? = some y →
    Arena.Alike Eq D.arena E.arena x y

theorem addArena_alike {D E : Arena NodeData} (hD : D.WF) (hE : E.WF) (n : Nat) : ∀ m,
    Arena.Alike Eq D E n m → D.fold (addArenaAlg D) n = E.fold (addArenaAlg E) m := by
  induction n using hD.induct_down with
  | step n ih =>
    intro m h
    cases h with
    | node data len kids =>
    rw [hD.fold_eq, hE.fold_eq]
    have e : (D.children n).map (D.fold (addArenaAlg D)) = (E.children m).map (E.fold (addArenaAlg E)) := by
      apply List.ext_getElem (by simpa using len)
      intro i h1 h2
      simp only [List.length_map] at h1 h2
      simp only [List.getElem_map]
      exact ih _ (List.getElem_mem h1) _ (kids i _ _ (List.getElem?_eq_getElem h1) (List.getElem?_eq_getElem h2))
    rw [e]
    funext T p
    simp only [addArenaAlg, data]

variable {H H' : Type} [DecidableEq H] [DecidableEq H'] {hashNode : HKind → Option Str → List H → H}
  {hashNode' : HKind → Option Str → List H' → H'} {old new old' new' : Document} {ob nb ob' nb' : Nat}

theorem buildTree_same (hD : old.arena.WF) (hE : old'.arena.WF) (hk : bodyKind old ob = bodyKind old' ob')
    (h : SameInner old old' ob ob') : buildTree old ob = buildTree old' ob' := by
  have e : (old.arena.children ob).map (old.arena.fold (addArenaAlg old.arena)) =
      (old'.arena.children ob').map (old'.arena.fold (addArenaAlg old'.arena)) := by
    apply List.ext_getElem (by simpa using h.len)
    intro i h1 h2
    simp only [List.length_map] at h1 h2
    simp only [List.getElem_map]
    exact addArena_alike hD hE _ _ (h.kids i _ _ (List.getElem?_eq_getElem h1) (List.getElem?_eq_getElem h2))
  unfold buildTree
  rw [hk, e]

theorem descendants_renamed {α : Type} {A B : Arena α} (hA : A.WF) (hB : B.WF) {P : Nat → Prop} {g : Nat → Nat}
    (hP : ∀ n c, P n → c ∈ A.children n → P c) (hk : ∀ n, P n → B.children (g n) = (A.children n).map g)
    (n : Nat) : P n → B.descendants (g n) = (A.descendants n).map g := by
  induction n using hA.induct_down with
  | step n ih =>
    intro hn
    rw [hA.descendants_flatMap, hB.descendants_flatMap, hk n hn, List.map_cons, List.flatMap_map, List.map_flatMap]
    congr 1
    exact flatMap_congr' fun c hc => ih c hc (hP _ _ hn hc)

theorem tree_alike {A B : Arena NodeData} (hA : A.WF) (hB : B.WF) (n : Nat) : ∀ m, Arena.Alike Eq A B n m →
    A.tree n = B.tree m ∧ A.forest n = B.forest m := by
  induction n using hA.induct_down with
  | step n ih =>
    intro m h
    cases h with
    | node data len kids =>
    have e : A.forest n = B.forest m := by
      unfold Arena.forest
      apply List.ext_getElem (by simpa using len)
      intro i h1 h2
      simp only [List.length_map] at h1 h2
      simp only [List.getElem_map]
      exact (ih _ (List.getElem_mem h1) _
        (kids i _ _ (List.getElem?_eq_getElem h1) (List.getElem?_eq_getElem h2))).1
    exact ⟨by rw [hA.tree_eq, hB.tree_eq, e, data], e⟩

theorem shape_renamed {A B : Arena TData} (hA : A.WF) (hB : B.WF) {P : Nat → Prop} {g : Nat → Nat}
    (hP : ∀ n c, P n → c ∈ A.children n → P c) (hk : ∀ n, P n → B.children (g n) = (A.children n).map g)
    (hd : ∀ n, P n → B.data (g n) = A.data n) (n : Nat) : P n → B.shape (g n) = A.shape n := by
  induction n using hA.induct_down with
  | step n ih =>
    intro hn
    rw [hA.shape_eq, hB.shape_eq, hk n hn, hd n hn, List.map_map]
    congr 1
    exact List.map_congr_left fun c hc => ih c hc (hP _ _ hn hc)

/-- **C59**: the patches depend on the two bodies only. Whatever else is in the documents, however their nodes
are numbered and whichever hash function is used, as long as it has no collision: when the contents of the old
bodies are equal and the new bodies are equal, the patches are the same. -/
theorem C59_patches_depend_on_the_bodies_only (h : Comparable old new ob nb) (h' : Comparable old' new' ob' nb')
    (hc : NoCollision hashNode (buildTree old ob) (diffable new) nb)
    (hc' : NoCollision hashNode' (buildTree old' ob') (diffable new') nb')
    (hold : SameInner old old' ob ob') (hnew : Arena.Alike Eq new.arena new'.arena nb nb') :
    diff hashNode old new = diff hashNode' old' new' := by
  have so := h.old.sound.arena
  have so' := h'.old.sound.arena
  have sn := h.new.sound.arena
  have sn' := h'.new.sound.arena
  obtain ⟨f, hb⟩ := buildTree_spec old so.leafy ob
  have hBw := Built.diffable_wf sn.wf
  have hBw' := Built.diffable_wf sn'.wf
  obtain ⟨_, oa, hok⟩ := Document.body_spec h.old.body
  obtain ⟨_, oa', hok'⟩ := Document.body_spec h'.old.body
  obtain ⟨hnm, na, hnk⟩ := Document.body_spec h.new.body
  obtain ⟨hnm', na', hnk'⟩ := Document.body_spec h'.new.body
  have hT : buildTree old' ob' = buildTree old ob := by
    refine (buildTree_same so.wf so'.wf ?_ hold).symm
    have : (new.arena.data nb).ns = (new'.arena.data nb').ns := by
      cases hnew with | node data _ _ => rw [data]
    simp only [bodyKind, hok, hok', h.ns, h'.ns, this]
  rw [hT] at hc'
  obtain ⟨g, hg0, hg, hinj⟩ := hnew.renaming sn.wf sn'.wf
  have hkid : ∀ n c, new.arena.Anc nb n → c ∈ new.arena.children n → new.arena.Anc nb c :=
    fun n c hn hc => .step ((sn.wf.mem_iff _ _).1 hc) hn
  have hdata : ∀ n, new.arena.Anc nb n → new'.arena.data (g n) = new.arena.data n := by
    intro n hn
    cases (hg n hn).1 with | node data _ _ => exact data.symm
  have htw : ArenaTwin (diffable new) (diffable new') (new.arena.Anc nb) g :=
    ⟨hBw, hBw', fun n hn => congrArg tdataOf (hdata n hn), fun n hn => (hg n hn).2.1, hkid, hinj⟩
  have hnbp := (sn.wf.mem_iff _ _).1 hnm
  have hnbp' := (sn'.wf.mem_iff _ _).1 hnm'
  have htop : ¬ new.arena.Anc nb new.root := not_anc_parent sn.wf hnbp
  have htop' : ¬ new'.arena.Anc nb' new'.root := not_anc_parent sn'.wf hnbp'
  have hnotroot : ∀ n c, new.arena.Anc nb n → c ∈ new.arena.children n → c ≠ nb := by
    rintro n c hn hcm rfl
    exact not_anc_parent sn.wf ((sn.wf.mem_iff _ _).1 hcm) hn
  have hparent : ∀ n, new.arena.Anc nb n → n ≠ nb → ∃ p, new.arena.Anc nb p ∧ new.arena.parent n = some p ∧
      new'.arena.parent (g n) = some (g p) := by
    intro n hn hne
    rcases hn.cases' with e | ⟨p, hp, hpa⟩
    · exact absurd e.symm hne
    · refine ⟨p, hpa, hp, (sn'.wf.mem_iff _ _).1 ?_⟩
      rw [(hg p hpa).2.1]
      exact List.mem_map_of_mem ((sn.wf.mem_iff _ _).2 hp)
  have hdesc := descendants_renamed (P := new.arena.Anc nb) (g := g) sn.wf sn'.wf hkid fun n hn => (hg n hn).2.1
  have hdesc' := descendants_renamed (P := new.arena.Anc nb) (g := g) hBw hBw' hkid fun n hn => (hg n hn).2.1
  have hT' : Twin (oldTree hashNode old ob) (newTree hashNode new nb) (oldTree hashNode' old' ob')
      (newTree hashNode' new' nb') ((buildTree old ob).Anc 0) (new.arena.Anc nb) g := by
    unfold oldTree newTree
    rw [hT]
    exact
      { aroot := rfl, akind := rfl, aprops := rfl, atext := rfl, aparent := rfl, achildren := rfl
        aposition := rfl, aheight := rfl, aiter := rfl, apost := rfl, adesc := rfl, aopaque := rfl
        qroot := .refl
        qkid := fun n c hn hc => .step ((hb.wf.mem_iff _ _).1 hc) hn
        qiter := fun n hn => (hb.wf.mem_descendants _ _).1 hn
        inj := hinj
        proot := .refl
        broot := hg0.symm
        pkid := hkid
        bkind := fun n hn => congrArg TData.kind (htw.data n hn)
        bprops := fun n hn => congrArg TData.props (htw.data n hn)
        btext := fun n hn => congrArg TData.text (htw.data n hn)
        bopaque := fun n hn => congrArg (fun d : TData => d.props.isOpaque) (htw.data n hn)
        bchildren := fun n hn => (hg n hn).2.1
        bparent := hparent
        btop := ⟨new.root, htop, hnbp⟩
        btop' := ⟨new'.root, fun n hn e => htop' (e ▸ (hg n hn).2.2), hnbp'⟩
        bposition := by
          intro n hn hne
          obtain ⟨p, hpa, hp, hp'⟩ := hparent n hn hne
          show (match new'.arena.parent (g n) with
            | none => 0
            | some p => Arena.posIn (new'.arena.children p) (g n)) = (match new.arena.parent n with
            | none => 0
            | some p => Arena.posIn (new.arena.children p) n)
          rw [hp, hp']
          simp only
          rw [(hg p hpa).2.1]
          have hmem := (sn.wf.mem_iff _ _).2 hp
          unfold Arena.posIn
          rw [if_pos (List.mem_map_of_mem hmem), if_pos hmem]
          have : ∀ l : List Nat, (∀ c ∈ l, new.arena.Anc nb c) → (l.map g).idxOf (g n) = l.idxOf n := by
            intro l
            induction l with
            | nil => intro _; rfl
            | cons c l ih =>
              intro hl
              rw [List.map_cons, List.idxOf_cons, List.idxOf_cons, ih fun c hc => hl c (List.mem_cons_of_mem _ hc)]
              have : (g c == g n) = (c == n) := by
                rw [Bool.eq_iff_iff, beq_iff_eq, beq_iff_eq]
                exact ⟨hinj c n (hl c List.mem_cons_self) hn, fun e => by rw [e]⟩
              rw [this]
          exact this _ fun c hc => hkid p c hpa hc
        notRoot := hnotroot
        biter := by
          show (diffable new').descendants nb' = ((diffable new).descendants nb).map g
          rw [← hg0]; exact hdesc' nb .refl
        piter := fun n hn => anc_of_diffable ((hBw.mem_descendants _ _).1 hn)
        bdesc := hdesc'
        pdesc := fun n m hn hm => hn.trans (anc_of_diffable ((hBw.mem_descendants _ _).1 hm))
        hash := by
          intro a b ha hbb
          have hs := shape_renamed hBw hBw' hkid htw.kids htw.data b hbb
          constructor
          · intro e
            exact hash_of_shape hb.wf hBw a b ((hc' a (g b) ha (diffable_anc (hg b hbb).2.2) e).trans hs)
          · intro e
            exact hash_of_shape hb.wf hBw' a (g b) ((hc a b ha (diffable_anc hbb) e).trans hs.symm) }
  have hM := hT'.diffMatching
  obtain ⟨hgood, hroot⟩ := diffMatching_good hb.wf hBw hc (h.rootsApart hb)
  have hr : (diffMatching (oldTree hashNode old ob) (newTree hashNode new nb)).containsB nb = true := by
    have := (hgood.getA 0 nb).2 hroot
    unfold Matching.containsB
    unfold Matching.getA at this
    exact Option.isSome_iff_exists.2 ⟨_, this⟩
  have hr' : ∀ p ∈ (diffMatching (oldTree hashNode old ob) (newTree hashNode new nb)).pairs, p.2 = nb →
      (buildTree old ob).parent p.1 = none := by
    rintro ⟨a, b⟩ hp rfl
    have h1 := (hgood.getA _ _).2 hp
    rw [(hgood.getA _ _).2 hroot] at h1
    cases h1
    exact hb.root
  have hscript := hT'.script hM hr hr'
  have hin := hT'.script_in hM hr hr'
  have hchg : opaqueChanges (oldTree hashNode' old' ob') (newTree hashNode' new' nb') new'.arena
      (diffMatching (oldTree hashNode' old' ob') (newTree hashNode' new' nb')) =
      opaqueChanges (oldTree hashNode old ob) (newTree hashNode new nb) new.arena
      (diffMatching (oldTree hashNode old ob) (newTree hashNode new nb)) := by
    unfold opaqueChanges
    rw [hM.pairs, List.filterMap_map]
    apply filterMap_congr'
    intro p hp
    obtain ⟨hq, hpp⟩ := hM.inPairs p hp
    simp only [Function.comp_apply, hT'.bopaque p.2 hpp, hT'.hash p.1 p.2 hq hpp]
    rw [serializeInner_eq, serializeInner_eq, (tree_alike sn.wf sn'.wf p.2 (g p.2) (hg p.2 hpp).1).2]
  unfold diff
  rw [h.old.body, h.new.body, h'.old.body, h'.new.body]
  simp only
  have hdoc : ((new'.arena.descendants nb').any fun n => decide ((new'.arena.data n).kind = .document)) =
      (new.arena.descendants nb).any fun n => decide ((new.arena.data n).kind = .document) := by
    rw [← hg0, hdesc nb .refl, List.any_map, Bool.eq_iff_iff, List.any_eq_true, List.any_eq_true]
    refine exists_congr fun n => and_congr_right fun hn => ?_
    simp only [Function.comp_apply, hdata n ((sn.wf.mem_descendants _ _).1 hn)]
  rw [hdoc, hscript, hchg, hT, htw.convertOps hin _ _ hM]

/-! ## A case that meets the hypotheses -/

/-- A document with content in its head, made before the content of its body; so the nodes of the body get
other ids. The body element has the given attributes. -/
def Document.ofHeadAndForest (attrs : Attrs) (hs cs : List Html) : Document :=
  { Document.new with
    arena := (addTrees (addTrees Document.new.arena 1 hs) 2 cs).setData 2 ⟨.element "body".toList attrs, .html⟩ }

theorem ofHeadAndForest_sound {attrs : Attrs} {hs cs : List Html} (ha : attrs.Unique)
    (h1 : Html.tidyL true hs = true) (h2 : Html.tidyL true cs = true) :
    (Document.ofHeadAndForest attrs hs cs).Sound := by
  obtain ⟨_, p1⟩ := addTrees_planted true hs Document.new.arena 1 h1 Document.new_sound.arena (by decide)
    (by right; exact ⟨_, _, rfl⟩)
  have hle : 3 ≤ (addTrees Document.new.arena 1 hs).next := p1.le
  obtain ⟨_, p2⟩ := addTrees_planted true cs (addTrees Document.new.arena 1 hs) 2 h2 p1.sound (by omega)
    (by right; rw [p1.data 2 (by decide)]; exact ⟨_, _, rfl⟩)
  have hle2 := p2.le
  refine ⟨p2.sound.setData 2 _ ?_ ?_ ?_, by
    show 0 < (addTrees (addTrees Document.new.arena 1 hs) 2 cs).next; omega⟩
  · rintro (⟨s, e⟩ | ⟨s, e⟩) <;> cases e
  · rintro t a e; cases e; exact ha
  · intro e; cases e

/-- The body is found and is the only body element, by checking every node. -/
def oneBodyB (D : Document) (b : Nat) : Bool :=
  decide (D.body = some b) && (List.range D.arena.next).all fun n => match (D.arena.data n).kind with
    | .element tag _ => decide (tag = "body".toList → n = b)
    | _ => true

theorem plain_of_oneBodyB {D : Document} {b : Nat} (hs : D.Sound) (hb : b < D.arena.next)
    (h : oneBodyB D b = true) : D.Plain b := by
  simp only [oneBodyB, Bool.and_eq_true, decide_eq_true_eq, List.all_eq_true, List.mem_range] at h
  refine ⟨hs, h.1, fun n attrs hn hk => ?_⟩
  have hlt : n < D.arena.next := by
    cases hn with
    | refl => exact hb
    | step hp _ => exact (hs.arena.wf.lt_of_parent _ _ hp).1
  have := h.2 n hlt
  rw [hk] at this
  exact of_decide_eq_true this rfl

theorem sameInner_of {D E : Document} {b c : Nat}
    (hl : (D.arena.children b).length = (E.arena.children c).length)
    (h : ((D.arena.children b).zip (E.arena.children c)).all (fun p =>
      alikeB (fun d e => decide (d = e)) D.arena E.arena 9 p.1 p.2) = true) : SameInner D E b c := by
  refine ⟨hl, fun i x y hx hy => ?_⟩
  exact alike_of_alikeB (fun d e h => of_decide_eq_true h)
    (List.all_eq_true.1 h (x, y) (List.mem_of_getElem? (i := i) (List.getElem?_zip_eq_some.2 ⟨hx, hy⟩)))

/-- A head with a title. -/
def exHead : List Html := [ex "title" [] [.text "News".toList], ex "link" [("rel", "icon")] []]

/-- The bodies are those of `ex1` and `ex2`; one document has a head, the other one has nodes with other ids,
and the old body has attributes. -/
example : ∃ old' new' : Document, SameInner (.ofForest ex1) old' 2 2 ∧
    Arena.Alike Eq (Document.ofForest ex2).arena new'.arena 2 2 ∧
    Comparable (.ofForest ex1) (.ofForest ex2) 2 2 ∧ Comparable old' new' 2 2 ∧
    NoCollision Shape.node (buildTree (.ofForest ex1) 2) (diffable (.ofForest ex2)) 2 ∧
    NoCollision Shape.node (buildTree old' 2) (diffable new') 2 ∧
    old'.arena.next ≠ (Document.ofForest ex1).arena.next ∧
    old'.arena.children 2 ≠ (Document.ofForest ex1).arena.children 2 ∧
    new'.arena.children 2 ≠ (Document.ofForest ex2).arena.children 2 := by
  refine ⟨.ofHeadAndForest [(⟨none, [], "class".toList⟩, "x".toList)] exHead ex1,
    .ofHeadAndForest [] exHead.reverse ex2,
    sameInner_of (by decide +kernel) (by decide +kernel),
    alike_of_alikeB (k := 9) (R := fun d e => decide (d = e)) (fun d e h => of_decide_eq_true h) (by decide +kernel),
    comparable_ofForest (by decide +kernel) (by decide +kernel), ⟨?_, ?_, by decide +kernel⟩,
    noCollision_shape _ _ _, noCollision_shape _ _ _, by decide +kernel, by decide +kernel, by decide +kernel⟩
  · exact plain_of_oneBodyB (ofHeadAndForest_sound (by decide +kernel) (by decide +kernel) (by decide +kernel))
      (by decide +kernel) (by decide +kernel)
  · exact plain_of_oneBodyB (ofHeadAndForest_sound (by decide +kernel) (by decide +kernel) (by decide +kernel))
      (by decide +kernel) (by decide +kernel)

end Hotmeal
