import Verif.Props.Parse

set_option autoImplicit false
set_option linter.unusedSectionVars false

/-!
# C80: documents read with `parse_body_fragment`

The fragment parser puts the content directly below the `html` element. The document has no body, so
the diff of two fragments is empty, whatever they contain.
-/

namespace Hotmeal
namespace Sink

/-- The content of an `append` call is not the node `x`. -/
def NodeOrText.Not (x : Nat) : NodeOrText → Prop
  | .text _ => True
  | .node n => n ≠ x

/-- What `html5ever` keeps to while it reads a fragment with the context element `ctx`, a `body`: the
start tags `<body>` in the text are ignored, so no other `body` element is created, and the context
element itself is never put anywhere (HTML standard, 13.4 and 13.2.6.4.7). -/
def FragmentCall (ctx : Nat) : Call → Prop
  | .createElement tag _ _ => tag ≠ "body".toList
  | .append _ c => NodeOrText.Not ctx c
  | .appendBeforeSibling _ c => NodeOrText.Not ctx c
  | .appendBasedOnParent _ _ c => NodeOrText.Not ctx c
  | _ => True

/-- A run of the fragment parser: its first calls, then calls that keep to the above and to the
contract of the sink, ending in `S`. -/
structure Fragment (calls : List Call) (S : Sink) : Prop where
  safe : Sink.new.SafeAll (fragmentStart ++ calls)
  run : Sink.new.runAll (fragmentStart ++ calls) = .ok S
  calls : ∀ c ∈ calls, FragmentCall 1 c

/-- `ctx` is not attached and every `body` element is `ctx`. -/
structure NoBody (A : Arena NodeData) (ctx : Nat) : Prop where
  lt : ctx < A.next
  loose : A.parent ctx = none
  only : ∀ n, n ≠ ctx → ∀ attrs, (A.data n).kind ≠ .element "body".toList attrs

theorem NoBody.newNode {A : Arena NodeData} {ctx : Nat} (h : NoBody A ctx) (d : NodeData)
    (hd : ∀ attrs, d.kind ≠ .element "body".toList attrs) : NoBody (A.newNode d).1 ctx := by
  have := h.lt
  refine ⟨by simp [Arena.newNode]; omega, ?_, ?_⟩
  · simp only [Arena.newNode, Arena.upd_apply]
    rw [if_neg (by omega)]; exact h.loose
  · intro n hn attrs
    rw [Arena.newNode_data]
    split
    · exact hd attrs
    · exact h.only n hn attrs

theorem NoBody.detach {A : Arena NodeData} {ctx : Nat} (h : NoBody A ctx) (n : Nat) :
    NoBody (A.detach n) ctx := by
  refine ⟨by rw [Arena.detach_next]; exact h.lt, ?_, ?_⟩
  · rw [Arena.detach_parent]
    split
    · rfl
    · exact h.loose
  · rw [Arena.detach_data]; exact h.only

theorem NoBody.appendRaw {A : Arena NodeData} {ctx : Nat} (h : NoBody A ctx) (p c : Nat) (hc : c ≠ ctx) :
    NoBody (A.appendRaw p c) ctx := by
  have h1 := h.detach c
  refine ⟨h1.lt, ?_, h1.only⟩
  simp only [Arena.appendRaw, Arena.upd_apply]
  rw [if_neg (by omega)]; exact h1.loose

theorem NoBody.append {A A' : Arena NodeData} {ctx : Nat} (h : NoBody A ctx) {p c : Nat} (hc : c ≠ ctx)
    (e : A.append p c = .ok A') : NoBody A' ctx := by
  unfold Arena.append at e
  split at e
  · cases e
  · cases e; exact h.appendRaw p c hc

theorem NoBody.insertBefore {A A' : Arena NodeData} {ctx : Nat} (h : NoBody A ctx) {sib c : Nat}
    (hc : c ≠ ctx) (e : A.insertBefore sib c = .ok A') : NoBody A' ctx := by
  have h1 := h.detach c
  unfold Arena.insertBefore at e
  split at e
  · cases e
  · simp only at e
    split at e
    · cases e; exact h1
    · split at e
      · cases e
      · cases e
        refine ⟨h1.lt, ?_, h1.only⟩
        simp only [Arena.upd_apply]
        rw [if_neg (by omega)]; exact h1.loose

theorem NoBody.setData {A : Arena NodeData} {ctx : Nat} (h : NoBody A ctx) (n : Nat) (d : NodeData)
    (hd : n ≠ ctx → ∀ attrs, d.kind ≠ .element "body".toList attrs) : NoBody (A.setData n d) ctx := by
  refine ⟨h.lt, h.loose, ?_⟩
  intro m hm attrs
  simp only [Arena.setData, Arena.upd_apply]
  split
  · next e => subst e; exact hd hm attrs
  · exact h.only m hm attrs

theorem NoBody.appendText {A : Arena NodeData} {ctx : Nat} (h : NoBody A ctx) (p : Nat) (s : Str) :
    NoBody (Sink.appendText A p s) ctx := by
  have new : NoBody (A.addChild p ⟨.text s, .html⟩).1 ctx :=
    (h.newNode ⟨.text s, .html⟩ (by intro _ e; cases e)).appendRaw p A.next (by have := h.lt; omega)
  unfold Sink.appendText
  split
  · split
    · exact h.setData _ _ (by intro _ _ e; cases e)
    · exact new
  · exact new

theorem NoBody.append_call {S S' : Sink} {ctx : Nat} (h : NoBody S.arena ctx) {p : Nat} {c : NodeOrText}
    (hc : NodeOrText.Not ctx c) (e : S.append p c = .ok S') : NoBody S'.arena ctx := by
  cases c with
  | text s => cases e; exact h.appendText p s
  | node n =>
    simp only [Sink.append] at e
    obtain ⟨A, h1, e⟩ := res_bind e
    cases e
    exact h.append hc h1

theorem NoBody.before_call {S S' : Sink} {ctx : Nat} (h : NoBody S.arena ctx) {sib : Nat} {c : NodeOrText}
    (hc : NodeOrText.Not ctx c) (e : S.appendBeforeSibling sib c = .ok S') : NoBody S'.arena ctx := by
  cases c with
  | text s =>
    simp only [Sink.appendBeforeSibling] at e
    obtain ⟨A, h1, e⟩ := res_bind e
    cases e
    unfold textBefore at h1
    split at h1
    · cases h1
      exact h.setData _ _ (by intro _ _ e; cases e)
    · exact (h.newNode ⟨.text s, .html⟩ (by intro _ e; cases e)).insertBefore
        (c := S.arena.next) (by have := h.lt; omega) h1
  | node n =>
    simp only [Sink.appendBeforeSibling] at e
    obtain ⟨A, h1, e⟩ := res_bind e
    cases e
    exact h.insertBefore hc h1

theorem NoBody.run {S S' : Sink} {ctx : Nat} (hw : S.arena.WF) (h : NoBody S.arena ctx) {c : Call}
    (hc : FragmentCall ctx c) (e : S.run c = .ok S') : NoBody S'.arena ctx := by
  cases c with
  | createElement tag ns attrs =>
    cases e; exact h.newNode _ (by intro a e; cases e; exact hc rfl)
  | createComment s => cases e; exact h.newNode _ (by intro a e; cases e)
  | createPi t d => cases e; exact h.newNode _ (by intro a e; cases e)
  | append p c => exact h.append_call hc e
  | appendBeforeSibling sib c => exact h.before_call hc e
  | appendBasedOnParent el prev c =>
    simp only [Sink.run, appendBasedOnParent] at e
    split at e
    · exact h.before_call hc e
    · exact h.append_call hc e
  | appendDoctype n => cases e; exact h
  | addAttrsIfMissing n attrs =>
    cases e
    unfold addAttrsIfMissing
    split
    · next tag old ns hd =>
      refine h.setData _ _ ?_
      intro hn a hk
      cases hk
      exact h.only n hn old (by rw [hd])
    · exact h
  | removeFromParent n => cases e; exact h.detach n
  | reparentChildren n p =>
    simp only [Sink.run, Sink.reparentChildren] at e
    obtain ⟨A, h1, e⟩ := res_bind e
    cases e
    have hl : ∀ c ∈ S.arena.children n, c ≠ ctx := by
      intro c hm e
      subst e
      have := (hw.mem_iff _ _).1 hm
      rw [h.loose] at this; cases this
    generalize S.arena.children n = l at h1 hl
    revert hl h1 h
    generalize S.arena = B
    intro h h1 hl
    induction l generalizing B with
    | nil => cases h1; exact h
    | cons c l ih =>
      rw [List.foldlM_cons] at h1
      obtain ⟨A1, e1, h1⟩ := res_bind h1
      exact ih _ ((h.detach c).append (hl c (by simp)) e1) h1 (fun c hc => hl c (by simp [hc]))

theorem noBody_start : NoBody (Sink.new.createElement "body".toList .html []).1.arena 1 := by
  refine ⟨by decide, rfl, ?_⟩
  intro n hn a
  simp only [Sink.createElement, Sink.new, Arena.newNode, Arena.upd_apply]
  rw [if_neg (by omega)]
  split <;> (intro e; cases e)

theorem Fragment.noBody {calls : List Call} {S : Sink} (h : Fragment calls S) :
    S.Good ∧ NoBody S.arena 1 := by
  obtain ⟨hs, hr, hc⟩ := h
  suffices ∀ (cs : List Call) (S0 : Sink), S0.Good → NoBody S0.arena 1 → S0.SafeAll cs →
      (∀ c ∈ cs, FragmentCall 1 c) → S0.runAll cs = .ok S → S.Good ∧ NoBody S.arena 1 by
    have hg := good_new.run hs.1 rfl
    refine this _ _ hg noBody_start (hs.2 _ rfl) ?_ hr
    intro c hm
    change c ∈ _ :: _ :: calls at hm
    rw [List.mem_cons, List.mem_cons] at hm
    rcases hm with rfl | rfl | hm
    · show "html".toList ≠ "body".toList
      decide
    · show 2 ≠ 1
      omega
    · exact hc c hm
  intro cs
  induction cs with
  | nil => intro S0 h0 h1 _ _ e; cases e; exact ⟨h0, h1⟩
  | cons c cs ih =>
    intro S0 h0 h1 hs hc e
    rw [Sink.runAll, List.foldlM_cons] at e
    obtain ⟨S1, e1, e⟩ := res_bind e
    exact ih S1 (h0.run hs.1 e1) (h1.run h0.arena.wf (hc c (by simp)) e1) (hs.2 S1 e1)
      (fun c' hc' => hc c' (by simp [hc'])) e

/-- A document read with `parse_body_fragment` has no body: none of the children of its root is a
`body` element. -/
theorem C80_no_body {calls : List Call} {S : Sink} (h : Fragment calls S) : S.finish.body = none := by
  obtain ⟨hg, hn⟩ := h.noBody
  unfold Document.body
  rw [List.find?_eq_none]
  intro c hc hh
  have hp := (hg.arena.wf.mem_iff _ _).1 hc
  unfold Document.hasTag at hh
  change (match (S.arena.data c).kind with
    | .element t _ => t == "body".toList
    | _ => false) = true at hh
  split at hh
  · next t a e =>
    have : t = "body".toList := eq_of_beq hh
    subst this
    refine hn.only c ?_ a e
    rintro rfl
    rw [hn.loose] at hp; cases hp
  · cases hh

/-- **C80**, partial: for any two documents read with `parse_body_fragment`, the diff succeeds and is
empty, applying it changes nothing, and both write the empty string as the HTML of their body. Missing,
and false (`C80_violated`): that the result has the content of the second fragment. -/
theorem C80_fragments_never_differ_partial {H : Type} [DecidableEq H] (hashNode : HKind → Option Str → List H → H)
    (parse : Str → Document) {calls calls' : List Call} {S T : Sink} (hS : Fragment calls S)
    (hT : Fragment calls' T) :
    S.finish.Sound ∧ T.finish.Sound ∧ diff hashNode S.finish T.finish = .ok [] ∧
      applyPatches parse S.finish [] = .ok S.finish ∧ S.finish.toBodyHtml = [] ∧
      T.finish.toBodyHtml = [] := by
  have h1 := C80_no_body hS
  have h2 := C80_no_body hT
  obtain ⟨d1, d2, d3⟩ := C07_no_bodies (hashNode := hashNode) parse h1 h2
  refine ⟨hS.noBody.1.finish, hT.noBody.1.finish, d1, d2, ?_, ?_⟩
  · unfold Document.toBodyHtml; rw [h1]
  · unfold Document.toBodyHtml; rw [h2]

/-- The calls for the fragment `<p>TEXT</p>`. -/
def paragraphCalls (text : Str) : List Call :=
  [.createElement "p".toList .html [], .append 2 (.node 3), .append 3 (.text text)]

/-- The HTML of the document the calls build. -/
def htmlOf : Option Sink → Option Str
  | some S => some S.finish.toHtml
  | none => none

theorem paragraph_fragment (text : Str) {S : Sink}
    (h : Sink.new.checkAll (fragmentStart ++ paragraphCalls text) = some S) :
    Fragment (paragraphCalls text) S := by
  obtain ⟨h1, h2⟩ := checkAll_spec good_new h
  refine ⟨h1, h2, ?_⟩
  intro c hc
  simp only [paragraphCalls, List.mem_cons, List.not_mem_nil, or_false] at hc
  rcases hc with rfl | rfl | rfl
  · show "p".toList ≠ "body".toList
    decide
  · show 3 ≠ 1
    omega
  · trivial

/-- **C80 is violated**: the fragments `<p>a</p>` and `<p>b</p>` are different documents, but the diff
from one to the other is empty, so applying it leaves the old content in place. This also shows that
runs of the fragment parser exist. -/
theorem C80_violated : ∃ S T : Sink, Fragment (paragraphCalls "a".toList) S ∧
    Fragment (paragraphCalls "b".toList) T ∧ S.finish.toHtml = "<html><p>a</p></html>".toList ∧
    T.finish.toHtml = "<html><p>b</p></html>".toList ∧ diff Shape.node S.finish T.finish = .ok [] := by
  have h1 : htmlOf (Sink.new.checkAll (fragmentStart ++ paragraphCalls "a".toList)) =
      some "<html><p>a</p></html>".toList := by decide +kernel
  have h2 : htmlOf (Sink.new.checkAll (fragmentStart ++ paragraphCalls "b".toList)) =
      some "<html><p>b</p></html>".toList := by decide +kernel
  cases e1 : Sink.new.checkAll (fragmentStart ++ paragraphCalls "a".toList) with
  | none => rw [e1] at h1; cases h1
  | some S =>
    cases e2 : Sink.new.checkAll (fragmentStart ++ paragraphCalls "b".toList) with
    | none => rw [e2] at h2; cases h2
    | some T =>
      rw [e1] at h1
      rw [e2] at h2
      have f1 := paragraph_fragment _ e1
      have f2 := paragraph_fragment _ e2
      exact ⟨S, T, f1, f2, Option.some.inj h1, Option.some.inj h2,
        (C80_fragments_never_differ_partial Shape.node (fun _ => S.finish) f1 f2).2.2.1⟩

end Sink
end Hotmeal
