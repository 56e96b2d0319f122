import Verif.Model.SinkNames
import Verif.Lemmas.Arena
import Verif.Lemmas.ArenaOps
import Verif.Props.Sink
import Verif.Props.Slots

/-! # C91: the parser finds its elements under the names it gave them -/

set_option autoImplicit false
set_option linter.unusedSectionVars false

namespace Hotmeal
namespace Sink

/-- What may happen to a node that the parser has made: an element keeps its tag, its namespace and its attributes and may
get others; a text may get longer; comments and the document stay as they are. -/
inductive Kept : NodeData → NodeData → Prop
  | element (tag : Str) (ns : Ns) (attrs more : Attrs) (h : ∀ kv ∈ more, ∀ kv' ∈ attrs, kv.1 ≠ kv'.1) :
    Kept ⟨.element tag attrs, ns⟩ ⟨.element tag (attrs ++ more), ns⟩
  | text (ns : Ns) (s t : Str) : Kept ⟨.text s, ns⟩ ⟨.text (s ++ t), ns⟩
  | comment (ns : Ns) (s : Str) : Kept ⟨.comment s, ns⟩ ⟨.comment s, ns⟩
  | document (ns : Ns) : Kept ⟨.document, ns⟩ ⟨.document, ns⟩

theorem Kept.refl (d : NodeData) : Kept d d := by
  rcases d with ⟨k, ns⟩
  cases k with
  | element tag attrs => have := Kept.element tag ns attrs [] (by simp); rwa [List.append_nil] at this
  | text s => have := Kept.text ns s []; rwa [List.append_nil] at this
  | comment s => exact .comment ns s
  | document => exact .document ns

theorem Kept.trans {a b c : NodeData} (h1 : Kept a b) (h2 : Kept b c) : Kept a c := by
  cases h1 with
  | element tag ns attrs more h =>
    cases h2 with
    | element _ _ _ more' h' =>
      rw [List.append_assoc]
      refine .element tag ns attrs (more ++ more') fun kv hkv kv' hkv' => ?_
      rcases List.mem_append.1 hkv with hm | hm
      · exact h kv hm kv' hkv'
      · exact h' kv hm kv' (List.mem_append_left _ hkv')
  | text ns s t =>
    cases h2 with
    | text _ _ t' => rw [List.append_assoc]; exact .text ns s (t ++ t')
  | comment ns s => exact h2
  | document ns => exact h2

/-- Every node there was is still there, kept. -/
def KeepsAll (A B : Arena NodeData) : Prop := A.next ≤ B.next ∧ ∀ n, n < A.next → Kept (A.data n) (B.data n)

theorem KeepsAll.refl (A : Arena NodeData) : KeepsAll A A := ⟨Nat.le_refl _, fun _ _ => .refl _⟩

theorem KeepsAll.trans {A B C : Arena NodeData} (h1 : KeepsAll A B) (h2 : KeepsAll B C) : KeepsAll A C :=
  ⟨Nat.le_trans h1.1 h2.1, fun n hn => (h1.2 n hn).trans (h2.2 n (Nat.lt_of_lt_of_le hn h1.1))⟩

theorem KeepsAll.of_data {A B : Arena NodeData} (hn : A.next = B.next) (hd : B.data = A.data) : KeepsAll A B :=
  ⟨Nat.le_of_eq hn, fun n _ => by rw [hd]; exact .refl _⟩

theorem keeps_newNode (A : Arena NodeData) (d : NodeData) : KeepsAll A (A.newNode d).1 :=
  ⟨by simp, fun n hn => by rw [Arena.newNode_data, if_neg (by omega)]; exact .refl _⟩

theorem keeps_detach (A : Arena NodeData) (n : Nat) : KeepsAll A (A.detach n) :=
  .of_data (Arena.detach_next A n).symm (Arena.detach_data A n)

theorem keeps_append {A B : Arena NodeData} {p c : Nat} (h : A.append p c = .ok B) : KeepsAll A B := by
  unfold Arena.append at h
  split at h
  · cases h
  · cases h
    exact .of_data (Arena.detach_next A c).symm (Arena.detach_data A c)

theorem keeps_insertBefore {A B : Arena NodeData} {s c : Nat} (h : A.insertBefore s c = .ok B) : KeepsAll A B := by
  unfold Arena.insertBefore at h
  split at h
  · cases h
  · simp only at h
    split at h
    · cases h; exact keeps_detach A c
    · split at h
      · cases h
      · cases h; exact .of_data (Arena.detach_next A c).symm (Arena.detach_data A c)

theorem keeps_setData (A : Arena NodeData) (n : Nat) (d : NodeData) (h : Kept (A.data n) d) : KeepsAll A (A.setData n d) := by
  refine ⟨Nat.le_refl _, fun m _ => ?_⟩
  show Kept (A.data m) (Arena.upd A.data n d m)
  rw [Arena.upd_apply]
  split
  · next e => rw [e]; exact h
  · exact .refl _

theorem keeps_pushText {A : Arena NodeData} {n : Nat} {old : Str} (s : Str) (h : textOf A n = some old) :
    KeepsAll A (pushText A n old s) := by
  refine keeps_setData A n _ ?_
  rcases hd : A.data n with ⟨k, ns⟩
  unfold textOf at h
  rw [hd] at h
  cases k with
  | text t => simp only [Option.some.injEq] at h; subst h; exact .text ns t s
  | _ => cases h

theorem keeps_addChild (A : Arena NodeData) (p : Nat) (d : NodeData) : KeepsAll A (A.addChild p d).1 :=
  (keeps_newNode A d).trans (.of_data (Arena.detach_next _ _).symm (Arena.detach_data _ _))

theorem keeps_appendText (A : Arena NodeData) (p : Nat) (s : Str) : KeepsAll A (appendText A p s) := by
  unfold appendText
  split
  · split
    · next h => exact keeps_pushText s h
    · exact keeps_addChild A p _
  · exact keeps_addChild A p _

theorem keeps_textBefore {A B : Arena NodeData} {sib : Nat} {s : Str} (h : textBefore A sib s = .ok B) : KeepsAll A B := by
  unfold textBefore at h
  split at h
  · next l old hb =>
    cases h
    obtain ⟨l', _, hm⟩ := Option.bind_eq_some_iff.1 hb
    obtain ⟨o', ho, e⟩ := Option.map_eq_some_iff.1 hm
    cases e
    exact keeps_pushText s ho
  · exact (keeps_newNode A _).trans (keeps_insertBefore h)

theorem keeps_append_call {S S' : Sink} {p : Nat} {c : NodeOrText} (h : S.append p c = .ok S') :
    KeepsAll S.arena S'.arena := by
  cases c with
  | node n =>
    obtain ⟨A, e, h⟩ := res_bind h
    cases h
    exact keeps_append e
  | text s => cases h; exact keeps_appendText _ _ _

theorem keeps_before_call {S S' : Sink} {sib : Nat} {c : NodeOrText} (h : S.appendBeforeSibling sib c = .ok S') :
    KeepsAll S.arena S'.arena := by
  cases c with
  | node n =>
    obtain ⟨A, e, h⟩ := res_bind h
    cases h
    exact keeps_insertBefore e
  | text s =>
    obtain ⟨A, e, h⟩ := res_bind h
    cases h
    exact keeps_textBefore e

theorem missing_other (old attrs : Attrs) : ∀ kv ∈ missing old attrs, ∀ kv' ∈ old, kv.1 ≠ kv'.1 := by
  induction attrs generalizing old with
  | nil => simp [missing]
  | cons a attrs ih =>
    obtain ⟨k, v⟩ := a
    intro kv hkv kv' hkv'
    unfold missing at hkv
    split at hkv
    · exact ih old kv hkv kv' hkv'
    · next hn =>
      rcases List.mem_cons.1 hkv with rfl | hm
      · intro e
        exact hn (List.mem_map.2 ⟨kv', hkv', e.symm⟩)
      · exact ih _ kv hm kv' (List.mem_append_left _ hkv')

/-- One call keeps every node. -/
theorem keeps_run {S S' : Sink} {c : Call} (h : S.run c = .ok S') : KeepsAll S.arena S'.arena := by
  cases c with
  | createElement t ns a => cases h; exact keeps_newNode _ _
  | createComment s => cases h; exact keeps_newNode _ _
  | createPi a b => cases h; exact keeps_newNode _ _
  | append p c => exact keeps_append_call h
  | appendBeforeSibling sib c => exact keeps_before_call h
  | appendBasedOnParent e p c =>
    simp only [run, appendBasedOnParent] at h
    split at h
    · exact keeps_before_call h
    · exact keeps_append_call h
  | appendDoctype n => cases h; exact .refl _
  | addAttrsIfMissing n a =>
    cases h
    unfold addAttrsIfMissing
    split
    · next tag old ns hd =>
      refine keeps_setData _ _ _ ?_
      rw [hd, C34_adds_missing]
      exact .element tag ns old _ (missing_other old a)
    · exact .refl _
  | removeFromParent n => cases h; exact keeps_detach _ _
  | reparentChildren n p =>
    obtain ⟨A, e, h⟩ := res_bind h
    cases h
    have : ∀ (l : List Nat) (A B : Arena NodeData),
        l.foldlM (fun A c => (A.detach c).append p c) A = .ok B → KeepsAll A B := by
      intro l
      induction l with
      | nil => intro A B h; cases h; exact .refl _
      | cons c l ih =>
        intro A B h
        rw [List.foldlM_cons] at h
        obtain ⟨A1, e1, h⟩ := res_bind h
        exact ((keeps_detach A c).trans (keeps_append e1)).trans (ih A1 B h)
    exact this _ _ _ e

/-- All calls keep every node. -/
theorem keeps_runAll {cs : List Call} {S S' : Sink} (h : S.runAll cs = .ok S') : KeepsAll S.arena S'.arena := by
  induction cs generalizing S with
  | nil => cases h; exact .refl _
  | cons c cs ih =>
    unfold runAll at h
    rw [List.foldlM_cons] at h
    obtain ⟨S1, e1, h⟩ := res_bind h
    exact (keeps_run e1).trans (ih h)

/-- The URLs of the namespaces of HTML, SVG and MathML, as given by the standards. -/
def KnownUrl (url : Str) : Prop :=
  url = "http://www.w3.org/1999/xhtml".toList ∨ url = "http://www.w3.org/2000/svg".toList ∨
    url = "http://www.w3.org/1998/Math/MathML".toList

/-- **C91.** Whatever calls the parser makes afterwards, an element it has created is named to it by the local name and the
namespace it was created with. -/
theorem C91_names_come_back (S : Sink) (name : QualName) (attrs : Attrs) (hu : KnownUrl name.ns) (cs : List Call)
    (S' : Sink) (h : (S.createNamed name attrs).1.runAll cs = .ok S') :
    S'.elemName (S.createNamed name attrs).2 = ⟨none, name.ns, name.loc⟩ := by
  have hk := (keeps_runAll h).2 S.arena.next (by simp [createNamed, createElement])
  have hd : (S.createNamed name attrs).1.arena.data S.arena.next = ⟨.element name.loc attrs, Ns.fromUrl name.ns⟩ := by
    show (S.arena.newNode _).1.data S.arena.next = _
    rw [Arena.newNode_data, if_pos rfl]
  rw [hd] at hk
  show S'.elemName S.arena.next = _
  unfold elemName
  have h12 : "http://www.w3.org/2000/svg".toList ≠ "http://www.w3.org/1999/xhtml".toList := by decide +kernel
  have h13 : "http://www.w3.org/1998/Math/MathML".toList ≠ "http://www.w3.org/1999/xhtml".toList := by decide +kernel
  have h23 : "http://www.w3.org/1998/Math/MathML".toList ≠ "http://www.w3.org/2000/svg".toList := by decide +kernel
  generalize S'.arena.data S.arena.next = d at hk
  rcases hu with e | e | e <;> rw [e] at hk ⊢ <;> unfold Ns.fromUrl at hk <;>
    simp only [if_true, if_neg h12, if_neg h13, if_neg h23] at hk <;> cases hk <;> rfl

/-- **C91.** In the document that comes out, the element has that tag and namespace and the attributes it was created with,
in that order, followed by others with other names only. -/
theorem C91_element_kept (S : Sink) (name : QualName) (attrs : Attrs) (cs : List Call) (S' : Sink)
    (h : (S.createNamed name attrs).1.runAll cs = .ok S') :
    ∃ more, S'.finish.arena.data (S.createNamed name attrs).2 =
        ⟨.element name.loc (attrs ++ more), Ns.fromUrl name.ns⟩ ∧ ∀ kv ∈ more, ∀ kv' ∈ attrs, kv.1 ≠ kv'.1 := by
  have hk := (keeps_runAll h).2 S.arena.next (by simp [createNamed, createElement])
  have hd : (S.createNamed name attrs).1.arena.data S.arena.next = ⟨.element name.loc attrs, Ns.fromUrl name.ns⟩ := by
    show (S.arena.newNode _).1.data S.arena.next = _
    rw [Arena.newNode_data, if_pos rfl]
  rw [hd] at hk
  show ∃ more, S'.arena.data S.arena.next = _ ∧ _
  generalize S'.arena.data S.arena.next = d at hk
  cases hk with
  | element _ _ _ more h => exact ⟨more, rfl, h⟩

/-- **C91.** Two elements are never taken for the same node: an element that is created later has another handle than all
nodes there were. -/
theorem C91_handles_differ (S : Sink) (name name' : QualName) (attrs attrs' : Attrs) (cs : List Call) (S' : Sink)
    (h : (S.createNamed name attrs).1.runAll cs = .ok S') :
    (S'.createNamed name' attrs').2 ≠ (S.createNamed name attrs).2 := by
  have := (keeps_runAll h).1
  have e : (S.createNamed name attrs).1.arena.next = S.arena.next + 1 := by simp [createNamed, createElement]
  show S'.arena.next ≠ S.arena.next
  omega

/-- **C91.** The two tables of namespaces fit together: each namespace has a URL from which it is found again, and
different namespaces have different URLs. -/
theorem C91_namespaces (ns ns' : Ns) : Ns.fromUrl ns.url = ns ∧ KnownUrl ns.url ∧ (ns.url = ns'.url → ns = ns') := by
  cases ns <;> cases ns' <;> unfold KnownUrl <;> decide +kernel

/-- What does not belong to one of the three namespaces comes back as HTML. (The parser makes no such elements.) -/
theorem C91_other_namespaces : ∃ (name : QualName), ¬ KnownUrl name.ns ∧
    (Sink.new.createNamed name []).1.elemName (Sink.new.createNamed name []).2 ≠ ⟨none, name.ns, name.loc⟩ :=
  ⟨⟨none, "urn:x".toList, "a".toList⟩, by unfold KnownUrl; decide +kernel, by decide +kernel⟩

/-- A run of the parser on `<svg id="1"><p>` with a late attribute: the names come back. -/
example :
    let S := Sink.new.createNamed ⟨none, "http://www.w3.org/2000/svg".toList, "svg".toList⟩
      [(⟨none, [], "id".toList⟩, "1".toList)]
    (match S.1.runAll [.append 0 (.node 1), .createElement "p".toList .html [], .append 1 (.node 2),
        .addAttrsIfMissing 1 [(⟨none, [], "id".toList⟩, "2".toList), (⟨none, [], "x".toList⟩, [])],
        .append 2 (.text "t".toList)] with
      | .ok S' => decide (S'.elemName S.2 = ⟨none, "http://www.w3.org/2000/svg".toList, "svg".toList⟩ ∧
          S'.elemName 2 = ⟨none, "http://www.w3.org/1999/xhtml".toList, "p".toList⟩ ∧ S'.elemName 3 ≠ S'.elemName 2)
      | .error _ => false) = true := by
  decide +kernel

end Sink
end Hotmeal
