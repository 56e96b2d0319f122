import Verif.Model.Display
import Verif.Props.PatchDebug
import Verif.Props.Outcome

set_option autoImplicit false
set_option linter.unusedSectionVars false

/-!
# C93: the texts that are shown of paths, properties and errors
-/

namespace Hotmeal
namespace Display

open PatchDebug (num num_inj num_head num_not)
open Dump (split_at_char)

theorem pathTail_ends : ∀ l, Json.Ends (pathTail l)
  | [] => .nil
  | _ :: _ => .cons (by decide)

theorem pathTail_inj : ∀ {l l' : List Nat}, pathTail l = pathTail l' → l = l'
  | [], [], _ => rfl
  | [], _ :: _, h => by simp [pathTail] at h
  | _ :: _, [], h => by simp [pathTail] at h
  | n :: l, m :: l', h => by
    simp only [pathTail, List.cons_append, List.cons.injEq, true_and] at h
    obtain ⟨e1, e2⟩ := num_inj (pathTail_ends l) (pathTail_ends l') h
    rw [e1, pathTail_inj e2]

/-- **C93.** The text of a path tells the path. -/
theorem C93_paths {l l' : List Nat} (h : path l = path l') : l = l' := by
  cases l with
  | nil =>
    cases l' with
    | nil => rfl
    | cons m l' =>
      obtain ⟨c, r, e, -⟩ := num_head m
      simp [path, e] at h
  | cons n l =>
    cases l' with
    | nil =>
      obtain ⟨c, r, e, -⟩ := num_head n
      simp [path, e] at h
    | cons m l' =>
      obtain ⟨e1, e2⟩ := num_inj (pathTail_ends l) (pathTail_ends l') h
      rw [e1, pathTail_inj e2]

/-- What the text of an error begins with. -/
theorem error_lits : "no body element found in document".toList = 'n' :: 'o' :: ' ' :: "body element found in document".toList ∧
    "path index ".toList = 'p' :: "ath index ".toList ∧ "cannot get parent of empty path".toList = 'c' :: "annot get parent of empty path".toList ∧
    "slot ".toList = 's' :: "lot ".toList ∧ "node is not a text node".toList = 'n' :: 'o' :: 'd' :: "e is not a text node".toList ∧
    "node is not an element".toList = 'n' :: 'o' :: 'd' :: "e is not an element".toList ∧
    "e is not a text node".toList ≠ "e is not an element".toList := by
  decide +kernel

/-- **C93.** The text of an error tells the error, with its number. -/
theorem C93_errors {e e' : Err} {s : Str} (h : error e = some s) (h' : error e' = some s) : e = e' := by
  have hh : error e = error e' := h.trans h'.symm
  have hs : (error e).isSome := by rw [h]; rfl
  have hs' : (error e').isSome := by rw [h']; rfl
  obtain ⟨l1, l2, l3, l4, l5, l6, l7⟩ := error_lits
  have ends : ∀ (t : Str), Json.Ends (' ' :: t) := fun t => .cons (by decide)
  have b1 : " out of bounds".toList = ' ' :: "out of bounds".toList := by decide +kernel
  have b2 : " not found".toList = ' ' :: "not found".toList := by decide +kernel
  clear h h'
  cases e <;> first | (cases hs; done) | skip
  all_goals cases e' <;> first | (cases hs'; done) | rfl | skip
  all_goals simp only [error, l1, l2, l3, l4, l5, l6, b1, b2, Option.some.injEq, List.cons_append, List.append_assoc,
    List.cons.injEq, false_and, and_false, true_and, Char.reduceEq] at hh
  · exact congrArg Err.slotNotFound (num_inj (ends _) (ends _) (List.append_cancel_left hh)).1
  · exact congrArg Err.pathOutOfBounds (num_inj (ends _) (ends _) (List.append_cancel_left hh)).1
  · exact absurd hh l7
  · exact absurd hh.symm l7

/-- No error text has a line break. -/
theorem C93_errors_one_line {e : Err} {s : Str} (h : error e = some s) : '\n' ∉ s := by
  have hn := num_not (c := '\n') (by decide)
  cases e <;> simp only [error, Option.some.injEq, reduceCtorEq] at h <;> subst h
  · decide +kernel
  · decide +kernel
  · simp only [List.mem_append, not_or]
    exact ⟨⟨by decide +kernel, hn _⟩, by decide +kernel⟩
  · simp only [List.mem_append, not_or]
    exact ⟨⟨by decide +kernel, hn _⟩, by decide +kernel⟩
  · decide +kernel
  · decide +kernel

theorem nowhere_text {A : Arena NodeData} {slots : Slots} {path : Path} {e : Err} (h : LeadsNowhere A slots path e) :
    ∃ s, error e = some s := by
  cases h <;> exact ⟨_, rfl⟩

theorem noPoint_text {A : Arena NodeData} {slots : Slots} {path : Path} {e : Err} (h : NoPoint A slots path e) :
    ∃ s, error e = some s := by
  cases h with
  | short => exact ⟨_, rfl⟩
  | parent _ h => exact nowhere_text h

/-- **C93.** Whenever a patch other than a Move is refused there is a text, and it is that of one error only. -/
theorem C93_refusals {A : Arena NodeData} {slots : Slots} {parse : Str → Document} (hA : A.WF)
    (hs : ∀ s r, slots s = some r → r < A.next) (hparse : ∀ s, (parse s).arena.WF) (p : Patch)
    (hm : ∀ f t s, p ≠ .move f t s) {e : Err} (h : applyPatch parse A slots p = .error e) :
    ∃ s, error e = some s ∧ ∀ e', error e' = some s → e' = e := by
  have : ∃ s, error e = some s := by
    cases ((C26_refused_iff hA hs hparse p hm).1 e).1 h with
    | target _ h => exact nowhere_text h
    | point _ h => exact noPoint_text h
    | _ => exact ⟨_, rfl⟩
  obtain ⟨s, hs⟩ := this
  exact ⟨s, hs, fun e' h' => C93_errors h' hs⟩

/-- An error of which something can be shown, or a panic. -/
def Told (e : Err) : Prop := e = .panic ∨ ∃ s, error e = some s

/-- If this fails then with such an error. -/
def Tells {α : Type} (x : Res α) : Prop := ∀ e, x = .error e → Told e

theorem Tells.ok {α : Type} (a : α) : Tells (.ok a : Res α) := fun _ h => nomatch h

theorem Tells.bind {α β : Type} {x : Res α} {f : α → Res β} (hx : Tells x) (hf : ∀ a, Tells (f a)) : Tells (x >>= f) := by
  intro e h
  cases x with
  | error e' => cases h; exact hx _ rfl
  | ok a => exact hf a e h

theorem Tells.foldlM {α β : Type} {f : β → α → Res β} (hf : ∀ b a, Tells (f b a)) :
    ∀ (l : List α) (b : β), Tells (l.foldlM f b)
  | [], b => .ok b
  | a :: l, b => by
    rw [List.foldlM_cons]
    exact (hf b a).bind fun b' => Tells.foldlM hf l b'

theorem tells_append (A : Arena NodeData) (p c : Nat) : Tells (A.append p c) := by
  intro e h
  unfold Arena.append at h
  split at h <;> cases h
  exact .inl rfl

theorem tells_insertBefore (A : Arena NodeData) (s c : Nat) : Tells (A.insertBefore s c) := by
  intro e h
  unfold Arena.insertBefore at h
  split at h
  · cases h; exact .inl rfl
  · simp only at h
    split at h
    · cases h
    · split at h <;> cases h
      exact .inl rfl

theorem tells_navLoop (A : Arena NodeData) : ∀ (l : List Nat) (n : Nat), Tells (navLoop A n l)
  | [], n => .ok n
  | i :: l, n => by
    intro e h
    unfold navLoop at h
    split at h
    · cases h; exact .inr ⟨_, rfl⟩
    · exact tells_navLoop A l _ e h

theorem tells_navigate (A : Arena NodeData) (slots : Slots) (path : Path) : Tells (navigate A slots path) := by
  intro e h
  cases path with
  | nil => cases h; exact .inr ⟨_, rfl⟩
  | cons s rest =>
    cases hs : slots s with
    | none => rw [navigate, hs] at h; cases h; exact .inr ⟨_, rfl⟩
    | some r => rw [navigate, hs] at h; exact tells_navLoop A rest r e h

theorem tells_insertAtPosition (A : Arena NodeData) (p pos n : Nat) : Tells (insertAtPosition A p pos n) := by
  unfold insertAtPosition
  simp only
  split
  · exact tells_append _ _ _
  · exact tells_insertBefore _ _ _

theorem tells_slotParent (A : Arena NodeData) (slots : Slots) (path : Path) : Tells (slotParent A slots path) := by
  unfold slotParent
  split
  · intro e h; cases h; exact .inr ⟨_, rfl⟩
  · split
    · intro e h; cases h; exact .inr ⟨_, rfl⟩
    · exact (tells_navigate _ _ _).bind fun _ => .ok _

theorem tells_insertAt (A : Arena NodeData) (slots : Slots) (path : Path) (n : Nat) (slot : Option Nat) :
    Tells (insertAt A slots path n slot) :=
  (tells_slotParent _ _ _).bind fun _ => (tells_insertAtPosition _ _ _ _).bind fun _ => .ok _

mutual
theorem tells_create (A : Arena NodeData) : ∀ c, Tells (createInsertContent A c)
  | .element tag attrs children => by
    unfold createInsertContent
    exact (tells_contents _ _ children).bind fun _ => .ok _
  | .text s => by unfold createInsertContent; exact .ok _
  | .comment s => by unfold createInsertContent; exact .ok _
theorem tells_contents (A : Arena NodeData) (n : Nat) : ∀ cs, Tells (appendInsertContents A n cs)
  | [] => by unfold appendInsertContents; exact .ok _
  | c :: cs => by
    unfold appendInsertContents
    exact (tells_create A c).bind fun _ => (tells_append _ _ _).bind fun _ => tells_contents _ n cs
end

theorem tells_cloneF (src : Arena NodeData) : ∀ (k n : Nat) (A : Arena NodeData),
    Tells (src.foldF (β := Arena NodeData → Res (Arena NodeData × Nat)) (fun n rs A =>
      let (A, m) := A.newNode (src.data n)
      do
        let A ← rs.foldlM (fun A r => do
          let (A, c) ← r A
          A.append m c) A
        .ok (A, m)) k n A)
  | 0, n, A => .ok _
  | k + 1, n, A => by
    have : ∀ (l : List Nat) (m : Nat) (A : Arena NodeData), Tells ((l.map (src.foldF
        (β := Arena NodeData → Res (Arena NodeData × Nat)) (fun n rs A =>
          let (A, m) := A.newNode (src.data n)
          do
            let A ← rs.foldlM (fun A r => do
              let (A, c) ← r A
              A.append m c) A
            .ok (A, m)) k)).foldlM (fun A r => do
          let (A, c) ← r A
          A.append m c) A) := by
      intro l m
      induction l with
      | nil => intro A; exact .ok A
      | cons c l ih =>
        intro A
        rw [List.map_cons, List.foldlM_cons]
        exact ((tells_cloneF src k c A).bind fun _ => tells_append _ _ _).bind fun A' => ih A'
    exact (this (src.children n) _ _).bind fun _ => .ok _

theorem tells_replaceByEmpty (A : Arena NodeData) (n : Nat) : Tells (replaceByEmpty A n) :=
  (tells_insertBefore _ _ _).bind fun _ => .ok _

theorem tells_applyPatch (parse : Str → Document) (A : Arena NodeData) (slots : Slots) (p : Patch) :
    Tells (applyPatch parse A slots p) := by
  have err : ∀ {e : Err}, Told e → Tells (.error e : Res (Arena NodeData × Slots)) := by
    intro e he e' h
    cases h
    exact he
  cases p with
  | insertElement at_ tag attrs children slot => exact (tells_contents _ _ _).bind fun _ => tells_insertAt _ _ _ _ _
  | insertText at_ s slot => exact tells_insertAt _ _ _ _ _
  | insertComment at_ s slot => exact tells_insertAt _ _ _ _ _
  | remove path => exact (tells_navigate _ _ _).bind fun _ => (tells_replaceByEmpty _ _).bind fun _ => .ok _
  | setText path s =>
    refine (tells_navigate _ _ _).bind fun n => ?_
    split
    · exact .ok _
    · exact .ok _
    · exact err (.inr ⟨_, rfl⟩)
  | setAttribute path name value =>
    refine (tells_navigate _ _ _).bind fun n => ?_
    split
    · exact .ok _
    · exact err (.inr ⟨_, rfl⟩)
  | removeAttribute path name =>
    refine (tells_navigate _ _ _).bind fun n => ?_
    split
    · exact .ok _
    · exact err (.inr ⟨_, rfl⟩)
  | move from_ to_ slot =>
    refine (tells_navigate _ _ _).bind fun n => ?_
    simp only
    split
    · exact (tells_replaceByEmpty _ _).bind fun _ => tells_insertAt _ _ _ _ _
    · exact (Tells.ok _).bind fun _ => tells_insertAt _ _ _ _ _
  | updateProps path changes =>
    refine (tells_navigate _ _ _).bind fun n => ?_
    split <;> exact .ok _
  | opaqueChanged path content =>
    refine (tells_navigate _ _ _).bind fun n => ?_
    refine Tells.bind (Tells.foldlM (fun A c => ?_) _ _) fun _ => .ok _
    exact (tells_cloneF _ _ c A).bind fun _ => tells_append _ _ _

/-- **C93.** When `apply_patches` fails without a panic there is a text, of this error only. No condition on the document or
the patches. -/
theorem C93_apply_errors (parse : Str → Document) (D : Document) (patches : List Patch) (e : Err)
    (h : applyPatches parse D patches = .error e) :
    e = .panic ∨ ∃ s, error e = some s ∧ ∀ e', error e' = some s → e' = e := by
  have loop : ∀ (ps : List Patch) (A : Arena NodeData) (slots : Slots), Tells (applyLoop parse A slots ps) := by
    intro ps
    induction ps with
    | nil => intro A slots; exact .ok _
    | cons p ps ih => intro A slots; exact (tells_applyPatch parse A slots p).bind fun _ => ih _ _
  have all : Tells (applyPatches parse D patches) := by
    unfold applyPatches
    split
    · exact .ok _
    · exact (loop _ _ _).bind fun _ => .ok _
  rcases all e h with h | ⟨s, hs⟩
  · exact .inl h
  · exact .inr ⟨s, hs, fun e' h' => C93_errors h' hs⟩

/-- Names as they are written in SVG and MathML: no colon but the one after the prefix. -/
def NoColon : PropKey → Prop
  | .text => True
  | .attr name => ':' ∉ name.loc ∧ (∀ p, name.prefix_ = some p → ':' ∉ p) ∧ ¬ (name.prefix_ = none ∧ name.loc = "_text".toList)

/-- **C93 (part).** The text of a property tells which property it is, up to the namespace, if no name has a colon and no
attribute is called `_text`. Missing: names with colons, which attributes of HTML elements may have
(`C93_violated_colon`), the name `_text` (`C93_violated_text`) and namespaces (`C93_violated_namespace`). -/
theorem C93_keys_partial {k k' : PropKey} (hk : NoColon k) (hk' : NoColon k') (h : key k = key k') :
    k = k' ∨ ∃ a a', k = .attr a ∧ k' = .attr a' ∧ a.prefix_ = a'.prefix_ ∧ a.loc = a'.loc := by
  have ht : ':' ∉ "_text".toList := by decide +kernel
  have sep : ∀ (p l r : Str), ':' ∉ r → p ++ ':' :: l ≠ r := by
    rintro p l r hr rfl
    exact hr (by simp)
  cases k with
  | text =>
    cases k' with
    | text => exact .inl rfl
    | attr a' =>
      obtain ⟨h1, h2, h3⟩ := hk'
      cases hp : a'.prefix_ with
      | none => simp only [key, hp] at h; exact absurd ⟨hp, h.symm⟩ h3
      | some p => simp only [key, hp] at h; exact absurd h.symm (sep _ _ _ ht)
  | attr a =>
    obtain ⟨g1, g2, g3⟩ := hk
    cases k' with
    | text =>
      cases hp : a.prefix_ with
      | none => simp only [key, hp] at h; exact absurd ⟨hp, h⟩ g3
      | some p => simp only [key, hp] at h; exact absurd h (sep _ _ _ ht)
    | attr a' =>
      obtain ⟨h1, h2, h3⟩ := hk'
      refine .inr ⟨a, a', rfl, rfl, ?_⟩
      cases hp : a.prefix_ with
      | none =>
        cases hp' : a'.prefix_ with
        | none => simp only [key, hp, hp'] at h; exact ⟨rfl, h⟩
        | some p' => simp only [key, hp, hp'] at h; exact absurd h.symm (sep _ _ _ g1)
      | some p =>
        cases hp' : a'.prefix_ with
        | none => simp only [key, hp, hp'] at h; exact absurd h (sep _ _ _ h1)
        | some p' =>
          simp only [key, hp, hp'] at h
          obtain ⟨e1, e2⟩ := split_at_char (g2 p hp) (h2 p' hp') h
          exact ⟨by rw [e1], e2⟩

/-- An attribute of that name is shown like the text of a node. -/
theorem C93_violated_text : key .text = key (.attr ⟨none, [], "_text".toList⟩) := rfl

/-- `xlink:href` of an HTML element (one name) and of an SVG element (prefix and name) are shown alike. -/
theorem C93_violated_colon :
    key (.attr ⟨none, [], "xlink:href".toList⟩) = key (.attr ⟨some "xlink".toList, [], "href".toList⟩) ∧
      (PropKey.attr ⟨none, [], "xlink:href".toList⟩ ≠ .attr ⟨some "xlink".toList, [], "href".toList⟩) := by
  decide +kernel

/-- Attributes with the same name in different namespaces are shown alike. -/
theorem C93_violated_namespace : ∃ ns ns', ns ≠ ns' ∧
    key (.attr ⟨none, ns, "lang".toList⟩) = key (.attr ⟨none, ns', "lang".toList⟩) :=
  ⟨[], "http://www.w3.org/XML/1998/namespace".toList, by decide +kernel, rfl⟩

/-- Some texts. -/
example : path [0, 12, 3] = "0.12.3".toList ∧ path [0, 1, 23] = "0.1.23".toList ∧ path [] = [] ∧
    error (.slotNotFound 10) = some "slot 10 not found".toList ∧
    error (.pathOutOfBounds 7) = some "path index 7 out of bounds".toList ∧
    key (.attr ⟨some "xlink".toList, [], "href".toList⟩) = "xlink:href".toList := by
  decide +kernel

/-- Names that meet the hypotheses of `C93_keys_partial`. -/
example : NoColon .text ∧ NoColon (.attr ⟨some "xlink".toList, [], "href".toList⟩) ∧
    NoColon (.attr ⟨none, [], "href".toList⟩) := by
  refine ⟨trivial, ⟨by decide +kernel, fun p h => ?_, by decide +kernel⟩, by decide +kernel, fun p h => ?_, by decide +kernel⟩
  · simp only [Option.some.injEq] at h
    subst h
    decide +kernel
  · cases h

/-- A patch that is refused in a sound arena, and its text. -/
example : (Document.ofForest []).arena.WF ∧
    (match applyPatch (fun _ => Document.new) (Document.ofForest []).arena (fun k => if k = 0 then some 2 else none)
      (.remove [0, 4]) with
      | .error e => decide (error e = some "path index 4 out of bounds".toList)
      | .ok _ => false) = true :=
  ⟨(ofForest_valid _ (by decide +kernel)).wf, by decide +kernel⟩

end Display
end Hotmeal
