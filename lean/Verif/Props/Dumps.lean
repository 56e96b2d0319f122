import Verif.Lemmas.Dumps
import Verif.Spec.OfForest
import Verif.Props.BodyHtml

set_option autoImplicit false
set_option linter.unusedSectionVars false

/-!
# C87: what is printed of a body tells which body it is
-/

namespace Hotmeal
namespace Dump

theorem nodoc_below {A : Arena NodeData} (hA : A.Sound) {b : Nat} (hb : (A.data b).kind ≠ .document) (m : Nat)
    (h : A.Anc b m) : (A.data m).kind ≠ .document := by
  cases h with
  | refl => exact hb
  | step hp _ => exact hA.nodoc _ _ hp

theorem dumpBody_eq (dbg : Str → Str) {D : Document} (hD : D.Sound) {b : Nat} (hb : D.body = some b) :
    dumpBody dbg D = some ((rowsL 0 (outline dbg (D.arena.tree b))).flatMap row) := by
  obtain ⟨_, a, hk⟩ := Document.body_spec hb
  unfold dumpBody
  rw [hb]
  simp only [Option.map_some, dumpSubtree]
  rw [dumpNode_eq dbg hD.arena.wf b (nodoc_below hD.arena (by rw [hk]; simp))]

/-- **C87**: documents whose bodies are printed alike have bodies with the same elements in the same places, the same
attributes with the same values, and the same texts and comments, whatever characters are in these; only the case of the
names of elements and the order and prefixes of attributes are not shown. Names are assumed to be without the characters
that separate names. -/
theorem C87_dump_determines {dbg : Str → Str} (hd : DebugStr dbg) {D D' : Document} (hD : D.Sound) (hD' : D'.Sound)
    {b b' : Nat} (hb : D.body = some b) (hb' : D'.body = some b') (hp : Plain (D.arena.tree b))
    (hp' : Plain (D'.arena.tree b')) (h : dumpBody dbg D = dumpBody dbg D') :
    LooksLike (D.arena.tree b) (D'.arena.tree b') := by
  rw [dumpBody_eq dbg hD hb, dumpBody_eq dbg hD' hb'] at h
  exact looksLike_of_text hd hp hp' (Option.some.inj h)

/-- **C87**: the other way round, what is printed depends on nothing else: not on the numbers of the nodes, nor on the
order in which attributes were set. -/
theorem C87_dump_determined (dbg : Str → Str) {D D' : Document} (hD : D.Sound) (hD' : D'.Sound) {b b' : Nat}
    (hb : D.body = some b) (hb' : D'.body = some b') (hn : Distinct (D.arena.tree b))
    (h : LooksLike (D.arena.tree b) (D'.arena.tree b')) : dumpBody dbg D = dumpBody dbg D' := by
  rw [dumpBody_eq dbg hD hb, dumpBody_eq dbg hD' hb', outline_congr dbg _ _ hn h]

/-- **C87**: a body is printed whenever there is one, and nothing is printed otherwise. -/
theorem C87_dump_exists (dbg : Str → Str) (D : Document) : (dumpBody dbg D).isSome = D.body.isSome := by
  simp [dumpBody]

/-! ### Concrete cases -/

theorem tree_of_body {D : Document} (hD : D.Sound) {b : Nat} {cs : List Html} (hb : D.body = some b)
    (hk : D.arena.data b = Document.elem "body".toList) (hf : D.bodyForest = cs) :
    D.arena.tree b = .element "body".toList [] cs := by
  unfold Document.bodyForest at hf
  rw [hb] at hf
  rw [hD.arena.wf.tree_eq, hk, ← hf]
  rfl

/-- Two bodies that look alike, with attributes in another order, and a third one. -/
def seen1 : Document := Document.ofForest [ex "p" [("id", "a"), ("class", "b\n")] [.text "x".toList, .comment "y".toList]]
@[inherit_doc seen1]
def seen2 : Document := Document.ofForest [ex "p" [("class", "b\n"), ("id", "a")] [.text "x".toList, .comment "y".toList]]
@[inherit_doc seen1]
def seen3 : Document := Document.ofForest [ex "p" [("class", "b\n"), ("id", "a")] [.text "x".toList], .comment "y".toList]

example : dumpBody quote seen1 =
    some "<body>\n  <p class=\"b\\n\" id=\"a\">\n    TEXT: \"x\"\n    COMMENT: \"y\"\n  </p>\n</body>\n".toList := by
  decide +kernel

/-- The hypotheses of `C87_dump_determines` and `C87_dump_determined` hold for these bodies; those that look alike are
printed alike and the other one is not. -/
example : DebugStr quote ∧ seen1.Sound ∧ seen2.Sound ∧ seen1.body = some 2 ∧ seen2.body = some 2 ∧
    Plain (seen1.arena.tree 2) ∧ Plain (seen2.arena.tree 2) ∧ Distinct (seen1.arena.tree 2) ∧
    dumpBody quote seen1 = dumpBody quote seen2 ∧ LooksLike (seen1.arena.tree 2) (seen2.arena.tree 2) ∧
    dumpBody quote seen1 ≠ dumpBody quote seen3 := by
  obtain ⟨s1, b1, t1, k1, _⟩ := ofForest_tidy (o := true) [ex "p" [("id", "a"), ("class", "b\n")] [.text "x".toList, .comment "y".toList]] (by decide +kernel)
  obtain ⟨s2, b2, t2, k2, _⟩ := ofForest_tidy (o := true) [ex "p" [("class", "b\n"), ("id", "a")] [.text "x".toList, .comment "y".toList]] (by decide +kernel)
  have e1 : seen1.arena.tree 2 = .element "body".toList [] [ex "p" [("id", "a"), ("class", "b\n")] [.text "x".toList, .comment "y".toList]] := by
    exact tree_of_body s1 b1 k1 t1
  have e2 : seen2.arena.tree 2 = .element "body".toList [] [ex "p" [("class", "b\n"), ("id", "a")] [.text "x".toList, .comment "y".toList]] := by
    exact tree_of_body s2 b2 k2 t2
  have p1 : Plain (seen1.arena.tree 2) := by
    rw [e1]; simp [Plain, PlainL, PlainTag, PlainAttr, ex]
  have p2 : Plain (seen2.arena.tree 2) := by
    rw [e2]; simp [Plain, PlainL, PlainTag, PlainAttr, ex]
  have d : dumpBody quote seen1 = dumpBody quote seen2 := by decide +kernel
  exact ⟨debugStr_quote, s1, s2, b1, b2, p1, p2, by rw [e1]; simp [Distinct, DistinctL, ex], d,
    C87_dump_determines debugStr_quote s1 s2 b1 b2 p1 p2 d, by decide +kernel⟩

/-- What `C87_dump_determines` leaves open is really not shown: these bodies have different HTML, because an attribute
has a prefix in one of them, and are printed alike. -/
theorem C87_prefix_not_shown :
    dumpBody quote (Document.ofForest [.element "use".toList [(⟨some "xlink".toList, [], "href".toList⟩, "#a".toList)] []]) =
      dumpBody quote (Document.ofForest [.element "use".toList [(⟨none, [], "href".toList⟩, "#a".toList)] []]) ∧
    (Document.ofForest [.element "use".toList [(⟨some "xlink".toList, [], "href".toList⟩, "#a".toList)] []]).toBodyHtml ≠
      (Document.ofForest [.element "use".toList [(⟨none, [], "href".toList⟩, "#a".toList)] []]).toBodyHtml := by
  decide +kernel

end Dump
end Hotmeal
