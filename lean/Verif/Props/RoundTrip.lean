import Verif.Lemmas.MirrorHtml
import Verif.Spec.OfForest

set_option autoImplicit false
set_option linter.unusedSectionVars false

/-!
# C01, C02, C05, C06: diff, then apply

The round trip is proved for changes that leave the content of opaque elements alone and for edit
scripts in which no Move puts a node below itself. `C01_violated` shows that the last condition
cannot be dropped: the code handles such Moves wrongly. What happens when the content of opaque
elements does change is the subject of `C01_round_trip_opaque_partial` and of `Verif.Props.Opaque`.
-/

namespace Hotmeal

variable {H : Type} [DecidableEq H] {hashNode : HKind → Option Str → List H → H}
  {old new : Document} {ob nb : Nat}

/-- Splitting a run at a prefix of its patches. -/
theorem Trace.split {B : Arena TData} {ins : List Nat} {step : StepFn} {g : Nat → Nat}
    {J : Nat → Prop} {w w2 : World} {ops : List EditOp} {ps : List Patch} (h : Trace B ins step g J w ops ps w2) :
    ∀ ps1 ps2, ps = ps1 ++ ps2 → ∃ ops1 ops2 w1, ops = ops1 ++ ops2 ∧
      Trace B ins step g J w ops1 ps1 w1 ∧ Trace B ins step g J w1 ops2 ps2 w2 := by
  induction h with
  | nil w =>
    intro ps1 ps2 e
    obtain ⟨rfl, rfl⟩ := List.nil_eq_append_iff.1 e
    exact ⟨[], [], w, rfl, .nil w, .nil w⟩
  | @cons w w1 w2 op ops P ps hc hs hg hr ht ih =>
    intro ps1 ps2 e
    cases ps1 with
    | nil =>
      rw [List.nil_append] at e
      subst e
      exact ⟨[], op :: ops, w, rfl, .nil w, .cons hc hs hg hr ht⟩
    | cons Q qs =>
      simp only [List.cons_append, List.cons.injEq] at e
      obtain ⟨rfl, rfl⟩ := e
      obtain ⟨o1, o2, w1', rfl, h1, h2⟩ := ih qs ps2 rfl
      exact ⟨op :: o1, o2, w1', rfl, .cons hc hs hg hr h1, h2⟩

namespace Comparable

theorem docRel_old (h : Comparable old new ob nb) :
    ∃ f, DocRel (buildTree old ob) old.arena ob f ∧ Built old ob (buildTree old ob) f := by
  obtain ⟨g, hb⟩ := buildTree_spec old h.old.sound.arena.leafy ob
  obtain ⟨hm, attrs, hk⟩ := Document.body_spec h.old.body
  have hp := (h.old.sound.arena.wf.mem_iff _ _).1 hm
  refine ⟨g, hb.docRel h.old.sound.arena.leafy (h.old.sound.arena.wf.lt_of_parent _ _ hp).1
    ⟨_, _, hk⟩ ?_, hb⟩
  rw [hk]; exact h.old.sound.arena.uniq _ _ _ hk

theorem initSlots_eq (h : Comparable old new ob nb) :
    initSlots old = (old, Arena.upd (fun _ => none) 0 (some ob)) := by
  unfold initSlots Document.ensureBody
  rw [h.old.body]

/-- `apply_patches` in terms of `runPatches`, also for the empty list. -/
theorem applyPatches_eq (h : Comparable old new ob nb) (parse : Str → Document) (ps : List Patch)
    {A : Arena NodeData} {slots : Slots}
    (hr : runPatches (applyPatch parse) old.arena (Arena.upd (fun _ => none) 0 (some ob)) ps =
      .ok (A, slots)) : applyPatches parse old ps = .ok { old with arena := A } := by
  unfold applyPatches
  cases ps with
  | nil =>
    simp only [runPatches, Except.ok.injEq, Prod.mk.injEq] at hr
    rw [← hr.1]; rfl
  | cons P ps =>
    simp only [List.isEmpty_cons, Bool.false_eq_true, if_false]
    rw [h.initSlots_eq]
    simp only
    rw [applyLoop_eq, hr]
    rfl

/-- The native round trip up to the reports about opaque elements, with everything that is known about
the result. -/
theorem native_run (h : Comparable old new ob nb)
    (hc : NoCollision hashNode (buildTree old ob) (diffable new) nb)
    (ho : OpaqueAgree hashNode old new ob nb)
    (hf : NoMoveBelowSelf hashNode old new ob nb ∨ NoInversion hashNode old new ob nb)
    (parse : Str → Document) :
    ∃ f S0 ps A g, Built old ob (buildTree old ob) f ∧ Shadow.new (buildTree old ob) 0 = .ok S0 ∧
      diff hashNode old new = .ok (ps ++ reports hashNode old new ob nb S0) ∧
      applyPatches parse old ps = .ok { old with arena := A } ∧
      (∀ ps1 ps2, ps = ps1 ++ ps2 → ∃ D1, applyPatches parse old ps1 = .ok D1) ∧
      Mirror (diffable new) nb A ob
        (Plan.rootKind (old.arena.data ob).kind ((diffable new).data nb).props)
        (Plan.bodyOf (diffable new) (diffMatching (oldTree hashNode old ob) (newTree hashNode new nb))
          old.arena f) g ∧
      Framed old.arena ob A ∧ ({ old with arena := A } : Document).body = some ob := by
  obtain ⟨f, hd, hbt⟩ := h.docRel_old
  obtain ⟨S0, ps, w, g, hS0, e, ht, _, hm, hfr⟩ := h.run hc ho hf (lawful_native parse _) hd
    (slots := Arena.upd (fun _ => none) 0 (some ob)) (by simp)
  refine ⟨f, S0, ps, w.D, g, hbt, hS0, e, h.applyPatches_eq parse ps ht.apply, ?_, hm, hfr, ?_⟩
  · intro ps1 ps2 e
    obtain ⟨o1, o2, w1, _, h1, _⟩ := ht.split ps1 ps2 e
    exact ⟨_, h.applyPatches_eq parse ps1 h1.apply⟩
  · refine hfr.body_eq h.old.sound.arena.wf h.old.body ?_
    obtain ⟨_, attrs, hk⟩ := Document.body_spec h.old.body
    rw [hm.rootK, hk]
    exact ⟨_, rfl⟩

/-- The native round trip when the content of opaque elements does not change. -/
theorem native (h : Comparable old new ob nb)
    (hc : NoCollision hashNode (buildTree old ob) (diffable new) nb)
    (ho : OpaqueFixed hashNode old new ob nb)
    (hf : NoMoveBelowSelf hashNode old new ob nb ∨ NoInversion hashNode old new ob nb)
    (parse : Str → Document) :
    ∃ body ps A g, diff hashNode old new = .ok ps ∧
      applyPatches parse old ps = .ok { old with arena := A } ∧
      (∀ ps1 ps2, ps = ps1 ++ ps2 → ∃ D1, applyPatches parse old ps1 = .ok D1) ∧
      Mirror (diffable new) nb A ob
        (Plan.rootKind (old.arena.data ob).kind ((diffable new).data nb).props) body g ∧
      Framed old.arena ob A ∧ ({ old with arena := A } : Document).body = some ob ∧
      Mirror.Contents new nb body Html.pruneL := by
  obtain ⟨f, S0, ps, A, g, hbt, _, e, e1, e2, hm, hfr, hb⟩ := h.native_run hc ho.agree hf parse
  rw [h.reports_nil hc ho.agree ho.same, List.append_nil] at e
  exact ⟨_, ps, A, g, e, e1, e2, hm, hfr, hb, h.contents hc ho.agree ho.same hbt⟩

/-- The body of the new document is not opaque. -/
theorem body_clear (h : Comparable old new ob nb)
    (hc : NoCollision hashNode (buildTree old ob) (diffable new) nb)
    (ho : OpaqueAgree hashNode old new ob nb) : ((diffable new).data nb).props.isOpaque = false := by
  obtain ⟨g, hb⟩ := buildTree_spec old h.old.sound.arena.leafy ob
  exact (h.plan hashNode hc ho hb).root_clear

end Comparable

/-! ### C01 -/

/-- **C01**, partial: `diff` succeeds, `apply_patches` succeeds, and afterwards the old document has
the body HTML of the new one, and even the same body content up to empty text nodes.

Missing from the full statement: changes of the content of opaque elements (`OpaqueFixed`), a second
body element inside the body (`Comparable`), and edit scripts with a Move of a node below itself, for
which the statement is false (`C01_violated`). -/
theorem C01_round_trip_partial (parse : Str → Document) (h : Comparable old new ob nb)
    (hc : NoCollision hashNode (buildTree old ob) (diffable new) nb)
    (ho : OpaqueFixed hashNode old new ob nb)
    (hf : NoMoveBelowSelf hashNode old new ob nb ∨ NoInversion hashNode old new ob nb) :
    ∃ ps old', diff hashNode old new = .ok ps ∧ applyPatches parse old ps = .ok old' ∧
      old'.toBodyHtml = new.toBodyHtml ∧
      Html.pruneL old'.bodyForest = Html.pruneL new.bodyForest := by
  obtain ⟨body, ps, A, g, e1, e2, _, hm, _, hb, hcn⟩ := h.native hc ho hf parse
  have hfo : Html.pruneL ({ old with arena := A } : Document).bodyForest =
      Html.pruneL new.bodyForest := by
    unfold Document.bodyForest
    rw [hb, h.new.body]
    exact hm.forest h.new.sound.arena.wf (fun b hb => Comparable.not_document new h.new hb) hcn
      (h.body_clear hc ho.agree)
  refine ⟨ps, _, e1, e2, ?_, hfo⟩
  rw [toBodyHtml_eq, toBodyHtml_eq, ← Html.serL_pruneL, hfo, Html.serL_pruneL]

/-- **C01** in the presence of opaque elements whose content may change, partial. The patch list ends
with reports about opaque elements. The patches before them apply. Afterwards the old document has the
body of the new one, apart from the content of opaque elements. The opaque elements are those of the
new document: one that is matched by `diff` with an old element keeps the content it had, and any
other has the content of the new document.

Missing from the full statement: the same as for `C01_round_trip_partial`, except that the content of
opaque elements may change. -/
theorem C01_round_trip_opaque_partial (parse : Str → Document) (h : Comparable old new ob nb)
    (hc : NoCollision hashNode (buildTree old ob) (diffable new) nb)
    (ho : OpaqueAgree hashNode old new ob nb)
    (hf : NoMoveBelowSelf hashNode old new ob nb ∨ NoInversion hashNode old new ob nb) :
    ∃ f ps rs old', Built old ob (buildTree old ob) f ∧ diff hashNode old new = .ok (ps ++ rs) ∧
      (∀ P ∈ rs, ∃ path html, P = .opaqueChanged path html) ∧
      applyPatches parse old ps = .ok old' ∧
      Html.maskL old'.bodyForest = Html.maskL new.bodyForest ∧
      Html.islandsL old'.bodyForest = (new.outermost nb).map fun b =>
        match (diffMatching (oldTree hashNode old ob) (newTree hashNode new nb)).getA b with
        | some a => old.arena.forest (f a)
        | none => new.arena.forest b := by
  obtain ⟨f, S0, ps, A, g, hbt, _, e, e1, _, hm, hfr, hb⟩ := h.native_run hc ho hf parse
  have hnd := fun b hb => Comparable.not_document new h.new (n := b) hb
  have hwn := h.new.sound.arena.wf
  refine ⟨f, ps, _, _, hbt, e, ?_, e1, ?_, ?_⟩
  · intro P hP
    obtain ⟨c, _, rfl⟩ := List.mem_map.1 hP
    exact ⟨_, _, rfl⟩
  · unfold Document.bodyForest
    rw [hb, h.new.body]
    exact hm.forest_mask hwn hnd (fun b _ => Comparable.bodyOf_none_iff b) (h.body_clear hc ho)
  · unfold Document.bodyForest
    rw [hb]
    show Html.islandsL (A.forest ob) = _
    rw [hm.islands h.new.sound.arena hnd (fun b _ => Comparable.bodyOf_none_iff b)
      (h.body_clear hc ho)]
    apply List.map_congr_left
    intro b hb
    have hop : ((diffable new).data b).props.isOpaque = true := Document.outermost_opaque hwn hb
    unfold Plan.bodyOf
    rw [if_pos hop]
    cases (diffMatching (oldTree hashNode old ob) (newTree hashNode new nb)).getA b with
    | some a => rfl
    | none => rw [extractChildren_html hwn h.new.sound.arena.nodoc]; rfl

/-- Kinds of nodes can be ranked so that every node of the body ranks above its parent: no kind of
element ever occurs below an element of the same kind, and more generally kinds are layered. -/
def Layered (rank : HKind → Nat) (D : Document) (b : Nat) : Prop :=
  ∀ n p, D.arena.parent n = some p → D.arena.Anc b p →
    rank (tdataOf (D.arena.data p)).kind < rank (tdataOf (D.arena.data n)).kind

theorem noInversion_of_layered (h : Comparable old new ob nb)
    (hc : NoCollision hashNode (buildTree old ob) (diffable new) nb)
    (hq : OpaqueAgree hashNode old new ob nb) {rank : HKind → Nat}
    (ho : Layered rank old ob) (hn : Layered rank new nb) : NoInversion hashNode old new ob nb := by
  obtain ⟨g, hb⟩ := buildTree_spec old h.old.sound.arena.leafy ob
  have hp := h.plan hashNode hc hq hb
  have hk : ∀ n, n < (buildTree old ob).next →
      ((buildTree old ob).data n).kind = (tdataOf (old.arena.data (g n))).kind := by
    intro n hn
    by_cases e : n = 0
    · subst e
      obtain ⟨_, attrs, hk⟩ := Document.body_spec h.old.body
      rw [hb.rdata, hb.g0]
      simp [bodyKind, tdataOf, hk]
    · rw [hb.data n hn e]
  refine ⟨fun a => rank ((buildTree old ob).data a).kind,
    fun b => rank ((diffable new).data b).kind, ?_, ?_, ?_⟩
  · intro a b hab
    show rank _ = rank _
    rw [hp.kind a b hab]
  · intro n p hnp
    show rank _ < rank _
    obtain ⟨h1, h2⟩ := hb.wf.lt_of_parent _ _ hnp
    rw [hk n h1, hk p h2]
    have hw := h.old.sound.arena.wf
    exact ho _ _ (hb.gparent hw hnp) (hb.ganc hw (hb.reach p h2))
  · intro n p hnp hpa
    exact hn n p hnp (anc_of_diffable hpa)

/-- **C01** for documents whose kinds are layered: no condition on the edit script is left. -/
theorem C01_round_trip_layered_partial (parse : Str → Document) (h : Comparable old new ob nb)
    (hc : NoCollision hashNode (buildTree old ob) (diffable new) nb)
    (hq : OpaqueFixed hashNode old new ob nb) {rank : HKind → Nat}
    (ho : Layered rank old ob) (hn : Layered rank new nb) :
    ∃ ps old', diff hashNode old new = .ok ps ∧ applyPatches parse old ps = .ok old' ∧
      old'.toBodyHtml = new.toBodyHtml ∧
      Html.pruneL old'.bodyForest = Html.pruneL new.bodyForest :=
  C01_round_trip_partial parse h hc hq (.inr (noInversion_of_layered h hc hq.agree ho hn))

/-! ### Values -/

mutual
def Shape.decEq : (s t : Shape) → Decidable (s = t)
  | .node k t cs, .node k' t' cs' =>
    if h1 : k = k' then
      if h2 : t = t' then
        match Shape.decEqL cs cs' with
        | .isTrue h3 => .isTrue (by rw [h1, h2, h3])
        | .isFalse h3 => .isFalse (by intro e; injection e with _ _ e; exact h3 e)
      else .isFalse (by intro e; injection e with _ e _; exact h2 e)
    else .isFalse (by intro e; injection e with e _ _; exact h1 e)
def Shape.decEqL : (s t : List Shape) → Decidable (s = t)
  | [], [] => .isTrue rfl
  | [], _ :: _ => .isFalse (by intro e; cases e)
  | _ :: _, [] => .isFalse (by intro e; cases e)
  | s :: ss, t :: ts =>
    match Shape.decEq s t with
    | .isTrue h1 => match Shape.decEqL ss ts with
      | .isTrue h2 => .isTrue (by rw [h1, h2])
      | .isFalse h2 => .isFalse (by intro e; injection e with _ e; exact h2 e)
    | .isFalse h1 => .isFalse (by intro e; injection e with e _; exact h1 e)
end

instance : DecidableEq Shape := Shape.decEq

/-- A collision-free hash: the shape itself. -/
theorem noCollision_shape (A B : Arena TData) (nb : Nat) : NoCollision Shape.node A B nb :=
  fun _ _ _ _ h => h

theorem comparable_ofForest_tidy {o : Bool} {cs ds : List Html} (hcs : Html.tidyL o cs = true)
    (hds : Html.tidyL o ds = true) :
    Comparable (Document.ofForest cs) (Document.ofForest ds) 2 2 := by
  obtain ⟨a1, a2, a3, a4, a5⟩ := ofForest_tidy cs hcs
  obtain ⟨b1, b2, b3, b4, b5⟩ := ofForest_tidy ds hds
  exact ⟨⟨a1, a2, ofForest_apart cs hcs⟩, ⟨b1, b2, ofForest_apart ds hds⟩, by rw [a4, b4]⟩

theorem comparable_ofForest {cs ds : List Html} (hcs : Html.plainL cs = true)
    (hds : Html.plainL ds = true) :
    Comparable (Document.ofForest cs) (Document.ofForest ds) 2 2 := comparable_ofForest_tidy hcs hds

theorem opaqueFixed_ofForest {cs ds : List Html} (hcs : Html.plainL cs = true)
    (hds : Html.plainL ds = true) :
    OpaqueFixed hashNode (Document.ofForest cs) (Document.ofForest ds) 2 2 :=
  opaqueFixed_of_clear (comparable_ofForest hcs hds) (ofForest_clear cs hcs) (ofForest_clear ds hds)

/-- No node is moved below itself, checked by running the conversion. -/
def movesSafe (cs ds : List Html) : Bool :=
  match Shadow.new (buildTree (.ofForest cs) 2) 0 with
  | .ok S => ancestorFree (diffable (.ofForest ds))
      (insertedNodes (script Shape.node (.ofForest cs) (.ofForest ds) 2 2))
      ⟨S, initBToShadow (diffMatching (oldTree Shape.node (.ofForest cs) 2)
        (newTree Shape.node (.ofForest ds) 2))⟩
      (script Shape.node (.ofForest cs) (.ofForest ds) 2 2)
  | .error _ => true

theorem noMoveBelowSelf_of_movesSafe {cs ds : List Html} (h : movesSafe cs ds = true) :
    NoMoveBelowSelf Shape.node (.ofForest cs) (.ofForest ds) 2 2 := by
  intro S hS
  unfold movesSafe at h
  rw [hS] at h
  exact h

/-- An element with an attribute. -/
def ex (tag : String) (attrs : List (String × String)) (cs : List Html) : Html :=
  .element tag.toList (attrs.map fun kv => (⟨none, [], kv.1.toList⟩, kv.2.toList)) cs

/-- Old content of the concrete case below: a list with three items. -/
def ex1 : List Html :=
  [ex "ul" [("class", "a")] [ex "li" [] [.text "one".toList], ex "li" [] [.text "two".toList],
    ex "li" [("id", "x")] [.comment "c".toList]], .text "tail".toList]
/-- New content: items reordered, one replaced, an attribute changed. -/
def ex2 : List Html :=
  [.text "head".toList, ex "ul" [("class", "b")] [ex "li" [] [.text "two".toList],
    ex "p" [] [ex "b" [] [.text "new".toList]], ex "li" [] [.text "one".toList]]]

/-- The hypotheses of `C01_round_trip_partial` hold for `ex1`, `ex2`, and the patch list is not
empty. -/
example : Comparable (.ofForest ex1) (.ofForest ex2) 2 2 ∧
    OpaqueFixed Shape.node (.ofForest ex1) (.ofForest ex2) 2 2 ∧
    NoMoveBelowSelf Shape.node (.ofForest ex1) (.ofForest ex2) 2 2 ∧
    (match diff Shape.node (.ofForest ex1) (.ofForest ex2) with
      | .ok ps => decide (ps.length = 11)
      | .error _ => false) = true :=
  ⟨comparable_ofForest (by decide +kernel) (by decide +kernel),
    opaqueFixed_ofForest (by decide +kernel) (by decide +kernel),
    noMoveBelowSelf_of_movesSafe (by decide +kernel), by decide +kernel⟩


/-- A list next to a widget whose content the page manages itself. -/
def exW1 : List Html :=
  [ex "ul" [("class", "a")] [ex "li" [] [.text "one".toList], ex "li" [] [.text "two".toList],
    ex "li" [("id", "x")] [.comment "c".toList]],
    ex "x-map" [("data-hotmeal-opaque", "")] [ex "b" [] [.text "live".toList]]]
/-- The widget and the list have changed places, the widget has other content, and there is a second
widget. -/
def exW2 : List Html :=
  [ex "x-map" [("data-hotmeal-opaque", ""), ("class", "m")] [ex "i" [] []],
    ex "ul" [("class", "b")] [ex "li" [] [.text "one".toList], ex "li" [] [.text "two".toList],
    ex "li" [("id", "x")] [.comment "c".toList], ex "x-map" [("data-hotmeal-opaque", "")] [.text "z".toList]]]

/-- The hypotheses of `C01_round_trip_opaque_partial` hold for `exW1`, `exW2`; the first widget is kept,
the second is inserted. -/
example : Comparable (.ofForest exW1) (.ofForest exW2) 2 2 ∧
    OpaqueAgree Shape.node (.ofForest exW1) (.ofForest exW2) 2 2 ∧
    NoMoveBelowSelf Shape.node (.ofForest exW1) (.ofForest exW2) 2 2 ∧
    ((Document.ofForest exW2).outermost 2).map (fun b =>
      ((diffMatching (oldTree Shape.node (.ofForest exW1) 2)
        (newTree Shape.node (.ofForest exW2) 2)).getA b).isSome) = [true, false] :=
  ⟨comparable_ofForest_tidy (o := true) (by decide +kernel) (by decide +kernel),
    by unfold OpaqueAgree AgreeOpaque; decide +kernel,
    noMoveBelowSelf_of_movesSafe (by decide +kernel), by decide +kernel⟩

/-- `Document.Islands` of a concrete document, by checking every node. -/
def islandsB (P : Str → Ns → Bool) (D : Document) : Bool :=
  (List.range D.arena.next).all fun n => match (D.arena.data n).kind with
    | .element tag attrs => decide (attrs.isOpaque = P tag (D.arena.data n).ns) &&
      (!attrs.isOpaque || (D.arena.children n).isEmpty)
    | _ => true

theorem islands_of_islandsB {P : Str → Ns → Bool} {D : Document} (hw : D.arena.WF) {b : Nat}
    (hb : b < D.arena.next) (h : islandsB P D = true) : D.Islands (fun t ns => P t ns = true) b := by
  intro n tag attrs hn hk
  have hlt : n < D.arena.next := by
    rcases hn.cases' with e | ⟨q, hq, _⟩
    · rw [← e]; exact hb
    · exact (hw.lt_of_parent _ _ hq).1
  unfold islandsB at h
  rw [List.all_eq_true] at h
  have := h n (List.mem_range.2 hlt)
  simp only [hk, Bool.and_eq_true, decide_eq_true_eq, Bool.or_eq_true, Bool.not_eq_true',
    List.isEmpty_iff] at this
  refine ⟨by rw [this.1], fun e => ?_⟩
  rcases this.2 with h | h
  · rw [h] at e; cases e
  · exact h

/-- A list with an empty widget. -/
def exI1 : List Html :=
  [ex "ul" [("class", "a")] [ex "li" [] [.text "one".toList], ex "li" [] [.text "two".toList],
    ex "li" [("id", "x")] [.comment "c".toList]],
    ex "x-map" [("data-hotmeal-opaque", "")] []]
/-- The widget has moved into the list. -/
def exI2 : List Html :=
  [ex "ul" [("class", "b")] [ex "x-map" [("data-hotmeal-opaque", ""), ("id", "m")] [],
    ex "li" [] [.text "one".toList], ex "li" [] [.text "two".toList],
    ex "li" [("id", "x")] [.comment "c".toList]]]

/-- The hypotheses of `C01_round_trip_partial` hold for documents with opaque elements. -/
example : Comparable (.ofForest exI1) (.ofForest exI2) 2 2 ∧
    OpaqueFixed Shape.node (.ofForest exI1) (.ofForest exI2) 2 2 ∧
    NoMoveBelowSelf Shape.node (.ofForest exI1) (.ofForest exI2) 2 2 := by
  have h1 : Html.tidyL true exI1 = true := by decide +kernel
  have h2 : Html.tidyL true exI2 = true := by decide +kernel
  have hc := comparable_ofForest_tidy h1 h2
  refine ⟨hc, opaqueFixed_of_islands (P := fun t _ => (t == "x-map".toList) = true) hc
    (noCollision_shape _ _ _) (fun _ => by decide +kernel) ?_ ?_,
    noMoveBelowSelf_of_movesSafe (by decide +kernel)⟩
  · exact islands_of_islandsB (P := fun t _ => t == "x-map".toList) (ofForest_tidy _ h1).1.arena.wf
      (by decide +kernel) (by decide +kernel)
  · exact islands_of_islandsB (P := fun t _ => t == "x-map".toList) (ofForest_tidy _ h2).1.arena.wf
      (by decide +kernel) (by decide +kernel)

/-- The kinds of `ex1`, `ex2` are layered. -/
def exRank : HKind → Nat
  | .element tag _ => if tag = "body".toList then 0 else if tag = "ul".toList then 1
    else if tag = "b".toList then 3 else 2
  | _ => 4

/-- Layering of a concrete document, by checking every node. -/
def layeredB (rank : HKind → Nat) (D : Document) : Bool :=
  (List.range D.arena.next).all fun p => (D.arena.children p).all fun n =>
    decide (p < 2 ∨ rank (tdataOf (D.arena.data p)).kind < rank (tdataOf (D.arena.data n)).kind)

example : Layered exRank (.ofForest ex1) 2 ∧ Layered exRank (.ofForest ex2) 2 := by
  have key : ∀ cs, Html.plainL cs = true → layeredB exRank (.ofForest cs) = true →
      Layered exRank (.ofForest cs) 2 := by
    intro cs h hl n p hp ha
    have hw := (ofForest_spec cs h).1.arena.wf
    unfold layeredB at hl
    rw [List.all_eq_true] at hl
    have h1 := hl p (List.mem_range.2 (hw.lt_of_parent _ _ hp).2)
    rw [List.all_eq_true] at h1
    have h2 := h1 n ((hw.mem_iff _ _).2 hp)
    simp only [decide_eq_true_eq] at h2
    rcases h2 with h2 | h2
    · exfalso
      obtain ⟨ids, hpl⟩ := addTrees_planted false cs Document.new.arena 2 h Document.new_sound.arena
        (by decide) (by right; exact ⟨_, _, rfl⟩)
      have h0 : (Document.ofForest cs).arena.parent 0 = none := hpl.parent 0 (by decide)
      have hq1 : (Document.ofForest cs).arena.parent 1 = some 0 := hpl.parent 1 (by decide)
      have hp01 : p = 0 ∨ p = 1 := by omega
      have no0 : ∀ m, (Document.ofForest cs).arena.Anc 2 m → m ≠ 0 := by
        intro m hm e
        subst e
        rcases hm.cases' with e | ⟨q, hq, _⟩
        · cases e
        · rw [h0] at hq; cases hq
      rcases hp01 with rfl | rfl
      · exact no0 _ ha rfl
      · rcases ha.cases' with e | ⟨q, hq, ha'⟩
        · cases e
        · rw [hq1] at hq; cases hq; exact no0 _ ha' rfl
    · exact h2
  exact ⟨key ex1 (by decide +kernel) (by decide +kernel),
    key ex2 (by decide +kernel) (by decide +kernel)⟩

/-! ### The round trip fails when a node is moved below itself -/

/-- Old content of the counterexample. -/
def bad1 : List Html :=
  [ex "d" [("c", "1")] [.text "t".toList, ex "p" [] [ex "d" [("i", "1")] [ex "b" []
    [ex "b" [] [], ex "b" [] [], ex "b" [] [], ex "b" [] [], ex "b" [] []], .text "q".toList]]]]
/-- New content: the two `d` elements have changed places. -/
def bad2 : List Html :=
  [ex "d" [("i", "1")] [ex "p" [] [ex "d" [("c", "1")] [ex "b" []
    [ex "b" [] [], ex "b" [] [], ex "b" [] [], ex "b" [] [], ex "b" [] []]]]]]

/-- **C01** is violated: there are two plain documents and a collision-free hash such that applying
the computed patches fails. -/
theorem C01_violated : ∃ cs ds : List Html, Html.plainL cs = true ∧ Html.plainL ds = true ∧
    (∀ A B nb, NoCollision Shape.node A B nb) ∧
    (match diff Shape.node (.ofForest cs) (.ofForest ds) with
      | .ok ps => decide (applyPatches (fun _ => Document.new) (.ofForest cs) ps matches
          .error (.pathOutOfBounds 0))
      | .error _ => false) = true :=
  ⟨bad1, bad2, by decide +kernel, by decide +kernel, noCollision_shape, by decide +kernel⟩

/-- Freedom from collisions is needed: with a hash that gives all subtrees the same value, a text becomes a text
with the content of the new comment, without an error. -/
theorem C01_needs_no_collision : ∃ (hashNode : HKind → Option Str → List Unit → Unit) (cs ds : List Html),
    Html.plainL cs = true ∧ Html.plainL ds = true ∧
    (match diff hashNode (.ofForest cs) (.ofForest ds) with
      | .ok ps => match applyPatches (fun _ => Document.new) (.ofForest cs) ps with
        | .ok D => decide (D.toBodyHtml = "<p>b</p>".toList ∧
            (Document.ofForest ds).toBodyHtml = "<p><!--b--></p>".toList)
        | .error _ => false
      | .error _ => false) = true :=
  ⟨fun _ _ _ => (), [ex "p" [] [.text "a".toList]], [ex "p" [] [.comment "b".toList]], by decide +kernel,
    by decide +kernel, by decide +kernel⟩

/-! ### C02 -/

/-- **C02**, partial (same missing cases as C01): `diff` succeeds and every prefix of its patch list
applies without error. -/
theorem C02_every_prefix_applies_partial (parse : Str → Document) (h : Comparable old new ob nb)
    (hc : NoCollision hashNode (buildTree old ob) (diffable new) nb)
    (ho : OpaqueFixed hashNode old new ob nb)
    (hf : NoMoveBelowSelf hashNode old new ob nb ∨ NoInversion hashNode old new ob nb) :
    ∃ ps, diff hashNode old new = .ok ps ∧
      ∀ ps1 ps2, ps = ps1 ++ ps2 → ∃ old', applyPatches parse old ps1 = .ok old' := by
  obtain ⟨_, ps, A, g, e1, _, e3, _⟩ := h.native hc ho hf parse
  exact ⟨ps, e1, e3⟩

/-- **C02** is violated in general, by the same documents as C01. -/
theorem C02_violated : ∃ cs ds : List Html, ∃ ps, Html.plainL cs = true ∧ Html.plainL ds = true ∧
    diff Shape.node (.ofForest cs) (.ofForest ds) = .ok ps ∧
    ∀ D, applyPatches (fun _ => Document.new) (.ofForest cs) ps ≠ .ok D := by
  obtain ⟨cs, ds, h1, h2, _, h⟩ := C01_violated
  cases e : diff Shape.node (.ofForest cs) (.ofForest ds) with
  | error x => rw [e] at h; cases h
  | ok ps =>
    refine ⟨cs, ds, ps, h1, h2, e, fun D hD => ?_⟩
    rw [e] at h
    simp only [hD] at h
    cases h

/-! ### C05 -/

/-- The attributes of a node. -/
def Document.attrsOf (D : Document) (n : Nat) : Attrs := match (D.arena.data n).kind with
  | .element _ attrs => attrs
  | _ => []

/-- **C05**, partial: after the round trip the body carries the attributes of the new body, if that
has any attribute or the old body has none. -/
theorem C05_body_attrs_partial (parse : Str → Document) (h : Comparable old new ob nb)
    (hc : NoCollision hashNode (buildTree old ob) (diffable new) nb)
    (ho : OpaqueFixed hashNode old new ob nb)
    (hf : NoMoveBelowSelf hashNode old new ob nb ∨ NoInversion hashNode old new ob nb)
    (ha : new.attrsOf nb ≠ [] ∨ old.attrsOf ob = []) :
    ∃ ps old', diff hashNode old new = .ok ps ∧ applyPatches parse old ps = .ok old' ∧
      old'.body = some ob ∧ old'.attrsOf ob = new.attrsOf nb := by
  obtain ⟨body, ps, A, g, e1, e2, _, hm, _, hb, hcn⟩ := h.native hc ho hf parse
  refine ⟨ps, _, e1, e2, hb, ?_⟩
  obtain ⟨_, oa, hok⟩ := Document.body_spec h.old.body
  obtain ⟨_, na, hnk⟩ := Document.body_spec h.new.body
  have e3 : ((diffable new).data nb).props = na := by
    show (tdataOf (new.arena.data nb)).props = na
    simp [tdataOf, hnk]
  have hk := hm.rootK
  rw [hok, e3] at hk
  simp only [Document.attrsOf, hok, hnk] at ha
  simp only [Document.attrsOf, hk, hnk, Plan.rootKind]
  by_cases e : na = []
  · rw [if_pos e]
    rcases ha with ha | ha
    · exact absurd e ha
    · rw [ha, e]
  · rw [if_neg e]

/-- What happens in the other case: when the new body has no attributes, the old ones stay. -/
theorem C05_stale_attrs_stay (parse : Str → Document) (h : Comparable old new ob nb)
    (hc : NoCollision hashNode (buildTree old ob) (diffable new) nb)
    (ho : OpaqueFixed hashNode old new ob nb)
    (hf : NoMoveBelowSelf hashNode old new ob nb ∨ NoInversion hashNode old new ob nb)
    (ha : new.attrsOf nb = []) :
    ∃ ps old', diff hashNode old new = .ok ps ∧ applyPatches parse old ps = .ok old' ∧
      old'.body = some ob ∧ old'.attrsOf ob = old.attrsOf ob := by
  obtain ⟨body, ps, A, g, e1, e2, _, hm, _, hb, hcn⟩ := h.native hc ho hf parse
  refine ⟨ps, _, e1, e2, hb, ?_⟩
  obtain ⟨_, oa, hok⟩ := Document.body_spec h.old.body
  obtain ⟨_, na, hnk⟩ := Document.body_spec h.new.body
  have e3 : ((diffable new).data nb).props = na := by
    show (tdataOf (new.arena.data nb)).props = na
    simp [tdataOf, hnk]
  have hk := hm.rootK
  rw [hok, e3] at hk
  simp only [Document.attrsOf, hnk] at ha
  simp only [Document.attrsOf, hk, hok, Plan.rootKind, if_pos ha]

/-- The document with body content `cs` and body attributes `attrs`. -/
def Document.ofBody (attrs : Attrs) (cs : List Html) : Document :=
  { Document.ofForest cs with
    arena := (Document.ofForest cs).arena.setData 2 ⟨.element "body".toList attrs, .html⟩ }

/-- `class="dark"` -/
def dark : Attrs := [(⟨none, [], "class".toList⟩, "dark".toList)]

/-- **C05** is violated: an attribute that the new body does not have survives. -/
theorem C05_violated : ∃ ps D, diff Shape.node (.ofBody dark ex1) (.ofForest ex2) = .ok ps ∧
    applyPatches (fun _ => Document.new) (.ofBody dark ex1) ps = .ok D ∧
    D.body = some 2 ∧ D.attrsOf 2 = dark ∧ (Document.ofForest ex2).attrsOf 2 = [] := by
  have h : (match diff Shape.node (.ofBody dark ex1) (.ofForest ex2) with
    | .error _ => false
    | .ok ps => match applyPatches (fun _ => Document.new) (.ofBody dark ex1) ps with
      | .error _ => false
      | .ok D => decide (D.body = some 2 ∧ D.attrsOf 2 = dark ∧
          (Document.ofForest ex2).attrsOf 2 = [])) = true := by decide +kernel
  cases e : diff Shape.node (.ofBody dark ex1) (.ofForest ex2) with
  | error x => rw [e] at h; cases h
  | ok ps =>
    rw [e] at h
    simp only at h
    cases e2 : applyPatches (fun _ => Document.new) (.ofBody dark ex1) ps with
    | error x => rw [e2] at h; cases h
    | ok D =>
      rw [e2] at h
      exact ⟨ps, D, rfl, e2, of_decide_eq_true h⟩

/-! ### The outside of the body (C06 without the hypotheses: `Verif.Props.Frame`) -/

/-- Under the hypotheses of `C01_round_trip_partial` the patches apply and patching keeps doctype and root, and every node
that is not inside the body keeps its data, its parent and its children. -/
theorem outside_untouched_ok (parse : Str → Document) (h : Comparable old new ob nb)
    (hc : NoCollision hashNode (buildTree old ob) (diffable new) nb)
    (ho : OpaqueFixed hashNode old new ob nb)
    (hf : NoMoveBelowSelf hashNode old new ob nb ∨ NoInversion hashNode old new ob nb) :
    ∃ ps old', diff hashNode old new = .ok ps ∧ applyPatches parse old ps = .ok old' ∧
      old'.doctype = old.doctype ∧ old'.root = old.root ∧ old'.body = some ob ∧
      old'.arena.parent ob = old.arena.parent ob ∧
      ∀ n, n < old.arena.next → ¬ old.arena.Anc ob n →
        old'.arena.data n = old.arena.data n ∧ old'.arena.parent n = old.arena.parent n ∧
        old'.arena.children n = old.arena.children n := by
  obtain ⟨_, ps, A, g, e1, e2, _, hm, hfr, hb, _⟩ := h.native hc ho hf parse
  refine ⟨ps, _, e1, e2, rfl, rfl, hb, hfr.body, fun n hn ha => ?_⟩
  obtain ⟨h1, h2, h3⟩ := hfr.out n ⟨hn, ha⟩
  exact ⟨h3, h1, h2⟩

/-- In particular the head of the document is the same tree as before. -/
theorem head_untouched_ok (parse : Str → Document) (h : Comparable old new ob nb)
    (hc : NoCollision hashNode (buildTree old ob) (diffable new) nb)
    (ho : OpaqueFixed hashNode old new ob nb)
    (hf : NoMoveBelowSelf hashNode old new ob nb ∨ NoInversion hashNode old new ob nb) :
    ∃ ps old', diff hashNode old new = .ok ps ∧ applyPatches parse old ps = .ok old' ∧
      old'.head = old.head ∧ ∀ hd, old.head = some hd → old'.arena.tree hd = old.arena.tree hd := by
  obtain ⟨_, ps, A, g, e1, e2, _, hm, hfr, hb, _⟩ := h.native hc ho hf parse
  have hw := h.old.sound.arena.wf
  obtain ⟨hbm, oa, hok⟩ := Document.body_spec h.old.body
  have hbp := (hw.mem_iff _ _).1 hbm
  have hrootout : Outside old.arena ob old.root := by
    refine ⟨(hw.lt_of_parent _ _ hbp).2, fun ha => ?_⟩
    exact hw.self_parent_ne hbp (hw.anc_antisymm (.step hbp .refl) ha)
  have hsib : ∀ c, c ∈ old.arena.children old.root → c ≠ ob → Outside old.arena ob c := by
    intro c hc' hne
    have hcp := (hw.mem_iff _ _).1 hc'
    refine ⟨(hw.lt_of_parent _ _ hcp).1, fun ha => ?_⟩
    rcases ha.cases' with e | ⟨q, hq, ha'⟩
    · exact hne e.symm
    · rw [hcp] at hq; cases hq; exact hrootout.2 ha'
  refine ⟨ps, _, e1, e2, ?_, ?_⟩
  · unfold Document.head
    show (A.children old.root).find? _ = _
    rw [(hfr.out _ hrootout).2.1]
    have key : ∀ cs : List Nat, (∀ c ∈ cs, c ∈ old.arena.children old.root) →
        cs.find? (({ old with arena := A } : Document).hasTag "head".toList) =
        cs.find? (old.hasTag "head".toList) := by
      intro cs
      induction cs with
      | nil => intro _; rfl
      | cons c cs ih =>
        intro hcs
        have e : ({ old with arena := A } : Document).hasTag "head".toList c =
            old.hasTag "head".toList c := by
          by_cases hcb : c = ob
          · subst hcb
            have hk := hm.rootK
            rw [hok] at hk
            simp only [Document.hasTag, hk, hok, Plan.rootKind]
          · simp only [Document.hasTag, (hfr.out c (hsib c (hcs c (by simp)) hcb)).2.2]
        rw [List.find?_cons, List.find?_cons, e, ih (fun c hc => hcs c (List.mem_cons_of_mem _ hc))]
    exact key _ (fun _ h => h)
  · intro hd hhd
    unfold Document.head at hhd
    have hhm := List.mem_of_find?_eq_some hhd
    have hne : hd ≠ ob := by
      rintro rfl
      have := List.find?_some hhd
      simp [Document.hasTag, hok] at this
    have hout := hsib hd hhm hne
    apply Arena.tree_congr hw hm.wf
    intro m hmh
    have : Outside old.arena ob m := by
      refine ⟨?_, fun ha => ?_⟩
      · rcases hmh.cases' with e | ⟨q, hq, _⟩
        · rw [← e]; exact hout.1
        · exact (hw.lt_of_parent _ _ hq).1
      · rcases Arena.anc_total ha hmh with h1 | h1
        · exact hout.2 h1
        · rcases h1.cases' with e | ⟨q, hq, h2⟩
          · exact hne e
          · rw [hbp] at hq; cases hq
            have hcp := (hw.mem_iff _ _).1 hhm
            exact hw.self_parent_ne hcp (hw.anc_antisymm (.step hcp .refl) h2)
    obtain ⟨_, h2, h3⟩ := hfr.out m this
    exact ⟨h2, h3⟩

end Hotmeal
