import Verif.Props.Sink
import Verif.Props.Slots
import Verif.Props.NoBody
import Verif.Spec.Sound
import Verif.Spec.OfForest
import Verif.Props.RoundTrip

set_option autoImplicit false
set_option linter.unusedSectionVars false

/-!
# C43 and C44: what the parser's calls build

C44: every sequence of tree-builder calls that keeps the contract of `TreeSink` builds a sound document.
C43: the root of the result is the first child of the document node, which need not be the `html`
element.
-/

namespace Hotmeal
namespace Sink

/-- The content of an `append` call: a text, or a node that exists, is not the document node and does
not contain the place where it is put. -/
def Fits (A : Arena NodeData) (at_ : Nat) : NodeOrText → Prop
  | .text _ => True
  | .node n => n < A.next ∧ (A.data n).kind ≠ .document ∧ ¬ A.Anc n at_

/-- The contract of the tree builder (`html5ever::TreeSink`): handles are those of created nodes, only
the document node and elements get children, a node is not put below itself, and the attributes of a
tag have different names. -/
def Safe (S : Sink) : Call → Prop
  | .createElement _ _ attrs => attrs.Unique
  | .append p c => p < S.arena.next ∧ S.arena.Container p ∧ Fits S.arena p c
  | .appendBeforeSibling sib c => sib < S.arena.next ∧ Fits S.arena sib c
  | .appendBasedOnParent e prev c => e < S.arena.next ∧ Fits S.arena e c ∧ prev < S.arena.next ∧
      S.arena.Container prev ∧ Fits S.arena prev c
  | .reparentChildren _ p => p < S.arena.next ∧ S.arena.Container p
  | _ => True

/-- Every call of the sequence keeps the contract at the time it is made. -/
def SafeAll (S : Sink) : List Call → Prop
  | [] => True
  | c :: cs => S.Safe c ∧ ∀ S', S.run c = .ok S' → S'.SafeAll cs

/-- The arena is sound and the document node is a childless or parent-only document node. -/
structure Good (S : Sink) : Prop where
  arena : S.arena.Sound
  doc_lt : S.document < S.arena.next
  doc : (S.arena.data S.document).kind = .document

theorem sound_empty : (⟨0, fun _ => none, fun _ => [], fun _ => default⟩ : Arena NodeData).Sound := by
  refine ⟨⟨?_, ?_, ?_, ⟨fun _ => 0, ?_⟩⟩, ?_, ?_, ?_⟩
  · intro c p h; cases h
  · intro c p; simp
  · intro p; simp
  · intro c p h; cases h
  · intro n _; rfl
  · intro n tag attrs h
    cases h
  · intro n p h; cases h

theorem good_new : Sink.new.Good where
  arena := sound_empty.newNode _ (by intro _ _ h; cases h)
  doc_lt := by decide
  doc := rfl

theorem textBefore_sound {A A' : Arena NodeData} (h : A.Sound) {sib : Nat} (hs : sib < A.next) {s : Str}
    (e : textBefore A sib s = .ok A') :
    A'.Sound ∧ A.next ≤ A'.next ∧
      ∀ n, n < A.next → (A.data n).kind = .document → (A'.data n).kind = .document := by
  unfold textBefore at e
  split at e
  · next l old hl =>
    simp only [Except.ok.injEq] at e
    subst e
    obtain ⟨l', _, hm⟩ := Option.bind_eq_some_iff.1 hl
    obtain ⟨old', ho, he⟩ := Option.map_eq_some_iff.1 hm
    cases he
    have hk := textOf_some.1 ho
    refine ⟨h.setData _ _ ?_ ?_ ?_, Nat.le_refl _, ?_⟩
    · intro _; exact h.leaf l (.inl ⟨_, hk⟩)
    · intro _ _ hh; cases hh
    · intro hh; cases hh
    · intro n _ hn
      simp only [pushText, Arena.setData, Arena.upd_apply]
      split
      · next e => subst e; rw [hk] at hn; cases hn
      · exact hn
  · simp only at e
    have h1 := h.newNode ⟨.text s, .html⟩ (by intro _ _ hh; cases hh)
    have hd := Arena.insertBefore_data e
    refine ⟨h1.insertBefore (by simp [Arena.newNode]) ?_ ?_ e, ?_, ?_⟩
    · rw [h.wf.anc_newNode]
      intro ha
      have := h.wf.anc_lt ha hs
      simp at this
    · rw [Arena.newNode_data]; simp
    · rw [hd.2]; simp [Arena.newNode]
    · intro n hlt hn
      rw [hd.1, Arena.newNode_data, if_neg (by omega)]
      exact hn

theorem appendText_sound {A : Arena NodeData} (h : A.Sound) {p : Nat} (hp : p < A.next)
    (hc : A.Container p) (s : Str) :
    (appendText A p s).Sound ∧ A.next ≤ (appendText A p s).next ∧
      ∀ n, n < A.next → (A.data n).kind = .document → ((appendText A p s).data n).kind = .document := by
  have new : (A.addChild p ⟨.text s, .html⟩).1.Sound ∧ A.next ≤ (A.addChild p ⟨.text s, .html⟩).1.next ∧
      ∀ n, n < A.next → (A.data n).kind = .document →
        ((A.addChild p ⟨.text s, .html⟩).1.data n).kind = .document := by
    have h1 := h.newNode ⟨.text s, .html⟩ (by intro _ _ hh; cases hh)
    have hne : p ≠ A.next := by omega
    refine ⟨h1.appendRaw (by simp [Arena.newNode]; omega) (by simp [Arena.newNode]) ?_ ?_ ?_, ?_, ?_⟩
    · rw [h.wf.anc_newNode]
      intro ha
      have := h.wf.anc_lt ha hp
      simp at this
    · unfold Arena.Container
      rw [Arena.newNode_data, if_neg hne]
      exact hc
    · simp [Arena.newNode]
    · simp [Arena.addChild, Arena.appendRaw, Arena.detach_next, Arena.newNode]
    · intro n hlt hn
      simp only [Arena.addChild, Arena.appendRaw, Arena.detach_data]
      rw [Arena.newNode_data, if_neg (by omega)]
      exact hn
  unfold appendText
  split
  · next l _ =>
    split
    · next old ho =>
      have hk := textOf_some.1 ho
      refine ⟨h.setData _ _ ?_ ?_ ?_, Nat.le_refl _, ?_⟩
      · intro _; exact h.leaf l (.inl ⟨_, hk⟩)
      · intro _ _ hh; cases hh
      · intro hh; cases hh
      · intro n _ hn
        simp only [pushText, Arena.setData, Arena.upd_apply]
        split
        · next e => subst e; rw [hk] at hn; cases hn
        · exact hn
    · exact new
  · exact new

theorem Good.append {S S' : Sink} (h : S.Good) {p : Nat} {c : NodeOrText} (hp : p < S.arena.next)
    (hc : S.arena.Container p) (hf : Fits S.arena p c) (e : S.append p c = .ok S') : S'.Good := by
  cases c with
  | text s =>
    simp only [Sink.append, Except.ok.injEq] at e
    subst e
    obtain ⟨h1, h2, h3⟩ := appendText_sound h.arena hp hc s
    exact ⟨h1, Nat.lt_of_lt_of_le h.doc_lt h2, h3 _ h.doc_lt h.doc⟩
  | node n =>
    simp only [Sink.append] at e
    obtain ⟨A, h1, e⟩ := res_bind e
    cases e
    have hd := Arena.append_data h1
    exact ⟨h.arena.append hp hf.1 hc hf.2.1 h1, by rw [hd.2]; exact h.doc_lt, by rw [hd.1]; exact h.doc⟩

theorem Good.before {S S' : Sink} (h : S.Good) {sib : Nat} {c : NodeOrText} (hs : sib < S.arena.next)
    (hf : Fits S.arena sib c) (e : S.appendBeforeSibling sib c = .ok S') : S'.Good := by
  cases c with
  | text s =>
    simp only [Sink.appendBeforeSibling] at e
    obtain ⟨A, h1, e⟩ := res_bind e
    cases e
    obtain ⟨h1, h2, h3⟩ := textBefore_sound h.arena hs h1
    exact ⟨h1, Nat.lt_of_lt_of_le h.doc_lt h2, h3 _ h.doc_lt h.doc⟩
  | node n =>
    simp only [Sink.appendBeforeSibling] at e
    obtain ⟨A, h1, e⟩ := res_bind e
    cases e
    have hd := Arena.insertBefore_data h1
    exact ⟨h.arena.insertBefore hf.1 hf.2.2 hf.2.1 h1, by rw [hd.2]; exact h.doc_lt,
      by rw [hd.1]; exact h.doc⟩

theorem Good.run {S S' : Sink} (h : S.Good) {c : Call} (hs : S.Safe c) (e : S.run c = .ok S') :
    S'.Good := by
  have newNode : ∀ d : NodeData, (∀ tag attrs, d.kind = .element tag attrs → attrs.Unique) →
      ({ S with arena := (S.arena.newNode d).1 } : Sink).Good := by
    intro d hd
    have := h.doc_lt
    refine ⟨h.arena.newNode d hd, by simp [Arena.newNode]; omega, ?_⟩
    show ((S.arena.newNode d).1.data S.document).kind = _
    rw [Arena.newNode_data, if_neg (by omega)]
    exact h.doc
  cases c with
  | createElement tag ns attrs =>
    cases e
    exact newNode _ (by intro t a hk; cases hk; exact hs)
  | createComment s =>
    cases e
    exact newNode _ (by intro t a hk; cases hk)
  | createPi t d =>
    cases e
    exact newNode _ (by intro t a hk; cases hk)
  | append p c => exact h.append hs.1 hs.2.1 hs.2.2 e
  | appendBeforeSibling sib c => exact h.before hs.1 hs.2 e
  | appendBasedOnParent el prev c =>
    simp only [Sink.run, appendBasedOnParent] at e
    split at e
    · exact h.before hs.1 hs.2.1 e
    · exact h.append hs.2.2.1 hs.2.2.2.1 hs.2.2.2.2 e
  | appendDoctype n => cases e; exact ⟨h.arena, h.doc_lt, h.doc⟩
  | addAttrsIfMissing n attrs =>
    cases e
    unfold addAttrsIfMissing
    split
    · next tag old ns hd =>
      refine ⟨h.arena.setData _ _ ?_ ?_ ?_, h.doc_lt, ?_⟩
      · rintro (⟨s, hh⟩ | ⟨s, hh⟩) <;> cases hh
      · intro t a hk; cases hk
        exact C34_unique old attrs (h.arena.uniq n tag old (by rw [hd]))
      · intro hk; cases hk
      · simp only [Arena.setData, Arena.upd_apply]
        split
        · next e =>
          have := h.doc
          rw [e, hd] at this; cases this
        · exact h.doc
    · exact h
  | removeFromParent n =>
    cases e
    exact ⟨h.arena.detach n, by simp [removeFromParent, Arena.detach_next, h.doc_lt],
      by simp [removeFromParent, Arena.detach_data, h.doc]⟩
  | reparentChildren n p =>
    simp only [Sink.run, Sink.reparentChildren] at e
    obtain ⟨A, h1, e⟩ := res_bind e
    cases e
    suffices ∀ (l : List Nat) (A A' : Arena NodeData), A.Sound → A.data = S.arena.data →
        A.next = S.arena.next → (∀ c ∈ l, c < A.next ∧ (A.data c).kind ≠ .document) →
        l.foldlM (fun A c => (A.detach c).append p c) A = .ok A' →
        A'.Sound ∧ A'.data = S.arena.data ∧ A'.next = S.arena.next by
      obtain ⟨g1, g2, g3⟩ := this _ _ _ h.arena rfl rfl (by
        intro c hc
        have hpar := (h.arena.wf.mem_iff _ _).1 hc
        exact ⟨(h.arena.wf.lt_of_parent _ _ hpar).1, h.arena.nodoc _ _ hpar⟩) h1
      exact ⟨g1, by rw [g3]; exact h.doc_lt, by rw [g2]; exact h.doc⟩
    intro l
    induction l with
    | nil => intro A A' h1 h2 h3 _ e; cases e; exact ⟨h1, h2, h3⟩
    | cons c l ih =>
      intro A A' h1 h2 h3 h4 e
      rw [List.foldlM_cons] at e
      obtain ⟨A1, e1, e⟩ := res_bind e
      have hd := Arena.append_data e1
      rw [Arena.detach_data, Arena.detach_next] at hd
      have hc := h4 c (by simp)
      refine ih A1 A' ?_ (by rw [hd.1, h2]) (by rw [hd.2, h3]) ?_ e
      · refine (h1.detach c).append ?_ ?_ ?_ ?_ e1
        · rw [Arena.detach_next, h3]; exact hs.1
        · rw [Arena.detach_next]; exact hc.1
        · unfold Arena.Container
          rw [Arena.detach_data, h2]; exact hs.2
        · rw [Arena.detach_data]; exact hc.2
      · intro c' hc'
        rw [hd.1, hd.2]
        exact h4 c' (by simp [hc'])

theorem Good.finish {S : Sink} (h : S.Good) : S.finish.Sound := by
  refine ⟨h.arena, ?_⟩
  show ((S.arena.children S.document).head?).getD S.document < S.arena.next
  cases e : (S.arena.children S.document).head? with
  | none => exact h.doc_lt
  | some r =>
    have := List.mem_of_mem_head? (Option.mem_def.2 e)
    exact (h.arena.wf.lt_of_parent _ _ ((h.arena.wf.mem_iff _ _).1 this)).1

theorem good_runAll {calls : List Call} {S0 S : Sink} (h0 : S0.Good) (hs : S0.SafeAll calls)
    (e : S0.runAll calls = .ok S) : S.Good := by
  induction calls generalizing S0 with
  | nil => cases e; exact h0
  | cons c cs ih =>
    rw [Sink.runAll, List.foldlM_cons] at e
    obtain ⟨S1, e1, e⟩ := res_bind e
    exact ih (h0.run hs.1 e1) (hs.2 S1 e1) e

/-- **C44**: every sequence of calls that keeps the contract of the tree builder and does not panic
builds a sound document: links form a tree, only elements and the document node have children,
attribute names are unique, and the root exists. -/
theorem C44_parser_builds_sound_documents (calls : List Call) (hs : Sink.new.SafeAll calls) {S : Sink}
    (h : Sink.new.runAll calls = .ok S) : S.finish.Sound := by
  exact (good_runAll good_new hs h).finish

/-! ### Checking the contract for concrete sequences -/

/-- Decides `Arena.Container`. -/
def containerB (A : Arena NodeData) (n : Nat) : Bool :=
  match (A.data n).kind with
  | .document => true
  | .element _ _ => true
  | _ => false

/-- Decides `Fits`. -/
def fitsB (A : Arena NodeData) (at_ : Nat) : NodeOrText → Bool
  | .text _ => true
  | .node n => decide (n < A.next) && decide ((A.data n).kind ≠ .document) &&
      !A.isAncestorOrSelf n A.next at_

/-- Decides `Safe`. -/
def safeB (S : Sink) : Call → Bool
  | .createElement _ _ attrs => decide attrs.Unique
  | .append p c => decide (p < S.arena.next) && containerB S.arena p && fitsB S.arena p c
  | .appendBeforeSibling sib c => decide (sib < S.arena.next) && fitsB S.arena sib c
  | .appendBasedOnParent e prev c => decide (e < S.arena.next) && fitsB S.arena e c &&
      decide (prev < S.arena.next) && containerB S.arena prev && fitsB S.arena prev c
  | .reparentChildren _ p => decide (p < S.arena.next) && containerB S.arena p
  | _ => true

/-- Runs a sequence, checking every call. -/
def checkAll (S : Sink) : List Call → Option Sink
  | [] => some S
  | c :: cs => if S.safeB c then match S.run c with
      | .ok S' => checkAll S' cs
      | .error _ => none
    else none

theorem container_of_B {A : Arena NodeData} {n : Nat} (h : containerB A n = true) : A.Container n := by
  unfold containerB at h
  unfold Arena.Container
  cases e : (A.data n).kind <;> rw [e] at h <;> simp_all

theorem fits_of_B {A : Arena NodeData} (hw : A.WF) {p : Nat} {c : NodeOrText}
    (h : fitsB A p c = true) : Fits A p c := by
  cases c with
  | text s => trivial
  | node n =>
    simp only [fitsB, Bool.and_eq_true, decide_eq_true_eq, Bool.not_eq_true'] at h
    refine ⟨h.1.1, h.1.2, fun ha => ?_⟩
    rw [(hw.isAncestorOrSelf_iff n p).2 ha] at h
    exact absurd h.2 (by simp)

theorem safe_of_B {S : Sink} (hw : S.arena.WF) {c : Call} (h : S.safeB c = true) : S.Safe c := by
  cases c <;> simp only [safeB, Bool.and_eq_true, decide_eq_true_eq] at h <;>
    simp only [Safe]
  · exact h
  · exact ⟨h.1.1, container_of_B h.1.2, fits_of_B hw h.2⟩
  · exact ⟨h.1, fits_of_B hw h.2⟩
  · exact ⟨h.1.1.1.1, fits_of_B hw h.1.1.1.2, h.1.1.2, container_of_B h.1.2, fits_of_B hw h.2⟩
  · exact ⟨h.1, container_of_B h.2⟩

theorem checkAll_spec {S S' : Sink} (hg : S.Good) {cs : List Call} (h : S.checkAll cs = some S') :
    S.SafeAll cs ∧ S.runAll cs = .ok S' := by
  induction cs generalizing S with
  | nil => cases h; exact ⟨trivial, rfl⟩
  | cons c cs ih =>
    simp only [checkAll] at h
    split at h
    · next hb =>
      have hsafe := safe_of_B hg.arena.wf hb
      split at h
      · next S1 e1 =>
        obtain ⟨i1, i2⟩ := ih (hg.run hsafe e1) h
        refine ⟨⟨hsafe, fun S2 e2 => ?_⟩, ?_⟩
        · rw [e1] at e2; cases e2; exact i1
        · rw [Sink.runAll, List.foldlM_cons, e1]
          exact i2
      · cases h
    · cases h

/-- The calls for `<!DOCTYPE html><!--c--><html><body>TEXT</body></html>`; without the comment if `c` is
`none`. -/
def pageCalls (comment : Option Str) (text : Str) : List Call :=
  let k := if comment.isSome then 1 else 0
  [.appendDoctype "html".toList] ++
  (match comment with
    | some c => [.createComment c, .append 0 (.node 1)]
    | none => []) ++
  [.createElement "html".toList .html [], .append 0 (.node (k + 1)),
   .createElement "head".toList .html [], .append (k + 1) (.node (k + 2)),
   .createElement "body".toList .html [], .append (k + 1) (.node (k + 3)),
   .append (k + 3) (.text text)]

/-- The hypotheses of `C44_parser_builds_sound_documents` hold for a whole page. -/
example : Sink.new.SafeAll (pageCalls (some "c".toList) "t".toList) ∧
    ∃ S, Sink.new.runAll (pageCalls (some "c".toList) "t".toList) = .ok S := by
  cases h : Sink.new.checkAll (pageCalls (some "c".toList) "t".toList) with
  | none => exact absurd h (by decide +kernel)
  | some S => exact ⟨(checkAll_spec good_new h).1, S, (checkAll_spec good_new h).2⟩

/-- **C43**, partial: if the first child of the document node is `r` and the first `body` child of `r` is
`b`, then `r` is the root and `b` the body. Missing, and false: that the first child of the document node
is the `html` element; a comment may come first (`C43_violated`). -/
theorem C43_body_found_partial (S : Sink) {r b : Nat} {rest pre post : List Nat} {attrs : Attrs}
    (hr : S.arena.children S.document = r :: rest) (hb : S.arena.children r = pre ++ b :: post)
    (hk : (S.arena.data b).kind = .element "body".toList attrs)
    (hpre : ∀ c ∈ pre, ∀ a, (S.arena.data c).kind ≠ .element "body".toList a) :
    S.finish.root = r ∧ S.finish.body = some b := by
  have hroot : S.finish.root = r := by simp [Sink.finish, hr]
  refine ⟨hroot, ?_⟩
  unfold Document.body
  rw [hroot]
  show (S.arena.children r).find? _ = some b
  rw [hb, List.find?_append, List.find?_eq_none.2]
  · simp only [Option.none_or]
    rw [List.find?_cons_of_pos]
    unfold Document.hasTag
    show (match (S.arena.data b).kind with
      | .element t _ => t == "body".toList
      | _ => false) = true
    rw [hk]; simp
  · intro c hc hh
    unfold Document.hasTag at hh
    change (match (S.arena.data c).kind with
      | .element t _ => t == "body".toList
      | _ => false) = true at hh
    split at hh
    · next t a e =>
      have : t = "body".toList := eq_of_beq hh
      subst this
      exact hpre c hc a e
    · cases hh

/-- The hypotheses hold for a page without a comment in front. -/
example : (match Sink.new.runAll (pageCalls none "t".toList) with
    | .ok S => decide (S.arena.children S.document = [1] ∧ S.arena.children 1 = [2] ++ 3 :: [] ∧
        (S.arena.data 3).kind = .element "body".toList [] ∧
        (S.arena.data 2).kind = .element "head".toList [])
    | .error _ => false) = true := by
  decide +kernel

/-- The shape of the page read behind a comment. -/
def commentFirst : Option Sink → Bool
  | some S => decide ((S.arena.data 4).kind = .element "body".toList [] ∧ S.finish.body = none ∧
      S.finish.toHtml = "<!DOCTYPE html><!--c-->".toList)
  | none => false

theorem commentFirst_spec {o : Option Sink} (h : commentFirst o = true) : ∃ S, o = some S ∧
    (S.arena.data 4).kind = .element "body".toList [] ∧ S.finish.body = none ∧
    S.finish.toHtml = "<!DOCTYPE html><!--c-->".toList := by
  cases o with
  | none => cases h
  | some S => exact ⟨S, rfl, of_decide_eq_true h⟩

/-- **C43 is violated**: the calls for `<!DOCTYPE html><!--c--><html><body>a</body></html>`, which keep
the contract, give a document whose root is the comment. It has no body, its HTML is the comment only,
and the diff to the same page with other text is empty. -/
theorem C43_violated : ∃ S T : Sink,
    Sink.new.SafeAll (pageCalls (some "c".toList) "a".toList) ∧
    Sink.new.runAll (pageCalls (some "c".toList) "a".toList) = .ok S ∧
    Sink.new.SafeAll (pageCalls (some "c".toList) "b".toList) ∧
    Sink.new.runAll (pageCalls (some "c".toList) "b".toList) = .ok T ∧
    (S.arena.data 4).kind = .element "body".toList [] ∧ S.finish.body = none ∧
    S.finish.toHtml = "<!DOCTYPE html><!--c-->".toList ∧
    diff Shape.node S.finish T.finish = .ok [] := by
  obtain ⟨S, hS, s1, s2, s3⟩ := commentFirst_spec
    (o := Sink.new.checkAll (pageCalls (some "c".toList) "a".toList)) (by decide +kernel)
  obtain ⟨T, hT, _, t2, _⟩ := commentFirst_spec
    (o := Sink.new.checkAll (pageCalls (some "c".toList) "b".toList)) (by decide +kernel)
  obtain ⟨a1, a2⟩ := checkAll_spec good_new hS
  obtain ⟨b1, b2⟩ := checkAll_spec good_new hT
  exact ⟨S, T, a1, a2, b1, b2, s1, s2, s3, (C07_no_bodies (hashNode := Shape.node) (fun _ => S.finish) s2 t2).1⟩

end Sink
end Hotmeal
