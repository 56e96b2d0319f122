import Verif.Lemmas.Html

/-!
# Serialization: C20, C21, C22, C24
-/

namespace Hotmeal

/-! ## Specification -/

/-- Replace the character references `&amp;`, `&lt;`, `&gt;` and `&quot;` by their characters, the
way an HTML parser reads text and attribute values. -/
def decodeRefs : Str → Str
  | '&' :: 'a' :: 'm' :: 'p' :: ';' :: r => '&' :: decodeRefs r
  | '&' :: 'l' :: 't' :: ';' :: r => '<' :: decodeRefs r
  | '&' :: 'g' :: 't' :: ';' :: r => '>' :: decodeRefs r
  | '&' :: 'q' :: 'u' :: 'o' :: 't' :: ';' :: r => '"' :: decodeRefs r
  | c :: r => c :: decodeRefs r
  | [] => []

theorem decodeRefs_cons_of_ne {c : Char} (h : c ≠ '&') (r : Str) :
    decodeRefs (c :: r) = c :: decodeRefs r := by
  rw [decodeRefs] <;> intros <;> simp_all

/-! ## C20 -/

/-- **C20.** Reading serialized text back gives the text. -/
theorem C20_text_round_trip (s : Str) : decodeRefs (escText s) = s := by
  induction s with
  | nil => rfl
  | cons c s ih =>
    have e : escText (c :: s) = escTextChar c ++ escText s := rfl
    rw [e]
    unfold escTextChar
    split
    · next h => subst h; show '&' :: decodeRefs (escText s) = _; rw [ih]
    · split
      · next h => subst h; show '<' :: decodeRefs (escText s) = _; rw [ih]
      · next h _ =>
        rw [List.singleton_append, decodeRefs_cons_of_ne h, ih]

/-- **C20.** Serialized text contains no `<`, so it cannot open or close a tag or comment. -/
theorem C20_no_tag (s : Str) : '<' ∉ escText s := by
  intro h
  obtain ⟨c, _, hc⟩ := List.mem_flatMap.1 h
  unfold escTextChar at hc
  split at hc
  · revert hc; decide
  · split at hc
    · revert hc; decide
    · next h2 => simp at hc; exact h2 hc.symm

/-- **C20.** Every `&` in serialized text begins `&amp;` or `&lt;`. -/
theorem C20_amp_is_reference (s pre suf : Str) (h : escText s = pre ++ '&' :: suf) :
    "amp;".toList <+: suf ∨ "lt;".toList <+: suf := by
  induction s generalizing pre with
  | nil => simp [escText] at h
  | cons c s ih =>
    have e : escText (c :: s) = escTextChar c ++ escText s := rfl
    rw [e] at h
    unfold escTextChar at h
    have split1 : ∀ (u : Str), u ++ escText s = pre ++ '&' :: suf →
        (∃ w, pre = u ++ w ∧ escText s = w ++ '&' :: suf) ∨
        (∃ w, u = pre ++ '&' :: w ∧ suf = w ++ escText s) := by
      intro u hu
      rcases List.append_eq_append_iff.1 hu with ⟨w, h1, h2⟩ | ⟨w, h1, h2⟩
      · exact Or.inl ⟨w, h1, h2⟩
      · cases w with
        | nil => left; refine ⟨[], by simpa using h1.symm, by simpa using h2.symm⟩
        | cons x w =>
          simp at h2
          right; exact ⟨w, by rw [h1, h2.1], h2.2⟩
    split at h
    · rcases split1 _ h with ⟨w, _, h2⟩ | ⟨w, h1, h2⟩
      · exact ih _ h2
      · have : pre = [] := by
          cases pre with
          | nil => rfl
          | cons x pre =>
            exfalso
            simp at h1
            have : '&' ∈ "amp;".toList := by
              show '&' ∈ ['a','m','p',';']
              rw [h1.2]; simp
            revert this; decide
        subst this
        simp at h1; left; rw [h2, ← h1]; exact List.prefix_append _ _
    · split at h
      · rcases split1 _ h with ⟨w, _, h2⟩ | ⟨w, h1, h2⟩
        · exact ih _ h2
        · have : pre = [] := by
            cases pre with
            | nil => rfl
            | cons x pre =>
              exfalso
              simp at h1
              have : '&' ∈ "lt;".toList := by
                show '&' ∈ ['l','t',';']
                rw [h1.2]; simp
              revert this; decide
          subst this
          simp at h1; right; rw [h2, ← h1]; exact List.prefix_append _ _
      · next hc _ =>
        rcases split1 _ h with ⟨w, _, h2⟩ | ⟨w, h1, h2⟩
        · exact ih _ h2
        · exfalso
          cases pre with
          | nil => simp at h1; exact hc h1.1
          | cons x pre => simp at h1

/-- **C20.** A text node outside script/style/noscript is written as its escaped text: for every
arena and node. -/
theorem C20_text_node (A : Arena NodeData) (n : Nat) (s : Str)
    (h : (A.data n).kind = .text s) : serialize A n false = escText s := by
  unfold serialize Arena.fold
  cases A.next with
  | zero => simp [Arena.foldF, serKind, h]
  | succ k => simp [Arena.foldF, serKind, h]

example : escText "a<b&c".toList = "a&lt;b&amp;c".toList := by decide

/-! ## C21 -/

/-- **C21.** Reading a serialized attribute value back gives the value. -/
theorem C21_attr_round_trip (s : Str) : decodeRefs (escAttr s) = s := by
  induction s with
  | nil => rfl
  | cons c s ih =>
    have e : escAttr (c :: s) = escAttrChar c ++ escAttr s := rfl
    rw [e]
    unfold escAttrChar
    split
    · next h => subst h; show '&' :: decodeRefs (escAttr s) = _; rw [ih]
    · split
      · next h => subst h; show '"' :: decodeRefs (escAttr s) = _; rw [ih]
      · split
        · next h => subst h; show '<' :: decodeRefs (escAttr s) = _; rw [ih]
        · split
          · next h => subst h; show '>' :: decodeRefs (escAttr s) = _; rw [ih]
          · next h _ _ _ =>
            rw [List.singleton_append, decodeRefs_cons_of_ne h, ih]

/-- **C21.** A serialized attribute value contains none of `"`, `<`, `>`. -/
theorem C21_no_special (s : Str) : ∀ c ∈ escAttr s, c ≠ '"' ∧ c ≠ '<' ∧ c ≠ '>' := by
  intro d h
  obtain ⟨c, _, hc⟩ := List.mem_flatMap.1 h
  unfold escAttrChar at hc
  split at hc
  · clear h; revert d; decide
  · split at hc
    · clear h; revert d; decide
    · split at hc
      · clear h; revert d; decide
      · split at hc
        · clear h; revert d; decide
        · next h1 h2 h3 h4 => simp at hc; subst hc; exact ⟨h2, h3, h4⟩

theorem span_append {γ : Type} (p : γ → Bool) (u : List γ) (x : γ) (r : List γ)
    (hu : ∀ c ∈ u, p c = true) (hx : p x = false) :
    (u ++ x :: r).takeWhile p = u ∧ (u ++ x :: r).dropWhile p = x :: r := by
  induction u with
  | nil => simp [hx]
  | cons y u ih =>
    have := ih (fun c hc => hu c (List.mem_cons_of_mem _ hc))
    simp [hu y (by simp), this]

/-- **C21.** In a start tag, the text up to the next quote after `name="` is exactly the escaped
value of that attribute: the value cannot end early or swallow what follows it. -/
theorem C21_value_delimited (k : QualName) (v : Str) (attrs : Attrs) (rest : Str) :
    ∃ tail, serAttrs ((k, v) :: attrs) ++ rest =
        ' ' :: serName k ++ "=\"".toList ++ tail ∧
      tail.takeWhile (· ≠ '"') = escAttr v ∧
      tail.dropWhile (· ≠ '"') = '"' :: (serAttrs attrs ++ rest) := by
  refine ⟨escAttr v ++ '"' :: (serAttrs attrs ++ rest), ?_, ?_⟩
  · simp [serAttrs]
  · exact span_append _ _ _ _ (fun c hc => by simpa using (C21_no_special v c hc).1) (by simp)

example : escAttr "a\"<b>&".toList = "a&quot;&lt;b&gt;&amp;".toList := by decide

/-! ## C22 -/

/-- **C22.** Removing every empty text node from a document body, at any depth, does not change
its HTML. -/
theorem C22_empty_text_invisible (D : Document) :
    Html.serL false (Html.pruneL D.bodyForest) = D.toBodyHtml := by
  rw [toBodyHtml_eq, Html.serL_pruneL]

/-- **C22.** Two documents whose bodies are equal up to empty text nodes have the same body
HTML. -/
theorem C22_equal_up_to_empty_text (D E : Document)
    (h : Html.pruneL D.bodyForest = Html.pruneL E.bodyForest) : D.toBodyHtml = E.toBodyHtml := by
  rw [← C22_empty_text_invisible, ← C22_empty_text_invisible, h]

/-- **C22.** Inserting an empty text node anywhere among the children of an element leaves the
HTML of that element unchanged. -/
theorem C22_insert_empty (tag : Str) (attrs : Attrs) (l r : List Html) (raw : Bool) :
    (Html.element tag attrs (l ++ .text [] :: r)).ser raw =
      (Html.element tag attrs (l ++ r)).ser raw := by
  simp [Html.ser, Html.serL_eq, escText_nil]

example : Html.pruneL [.element "p".toList [] [.text [], .text "x".toList], .text []] =
    [.element "p".toList [] [.text "x".toList]] := by
  simp [Html.pruneL, Html.prune, Html.isEmptyText]

/-! ## C24 -/

/-- The void elements of the HTML standard, plus the obsolete `param`. -/
def VoidNames : List Str :=
  ["area".toList, "base".toList, "br".toList, "col".toList, "embed".toList, "hr".toList,
   "img".toList, "input".toList, "link".toList, "meta".toList, "param".toList,
   "source".toList, "track".toList, "wbr".toList]

/-- The elements whose text is written verbatim. -/
def RawNames : List Str := ["script".toList, "style".toList, "noscript".toList]

/-- The start tag of an element. -/
def startTag (tag : Str) (attrs : Attrs) : Str := '<' :: tag ++ serAttrs attrs ++ ['>']

theorem isVoid_iff (tag : Str) : isVoid tag = true ↔ tag ∈ VoidNames := by
  simp only [isVoid, VoidNames, List.contains_iff_mem]

theorem isRawText_iff (tag : Str) : isRawText tag = true ↔ tag ∈ RawNames := by
  simp only [isRawText, RawNames, List.contains_iff_mem]

/-- **C24.** A void element is written as its start tag alone, whatever children it has; any other
element is written as start tag, children, end tag. -/
theorem C24_element (A : Arena NodeData) (hwf : A.WF) (n : Nat) (tag : Str) (attrs : Attrs)
    (raw : Bool) (h : (A.data n).kind = .element tag attrs) :
    serialize A n raw =
      if tag ∈ VoidNames then startTag tag attrs
      else startTag tag attrs ++
        (A.children n).flatMap (fun c => serialize A c (decide (tag ∈ RawNames))) ++
        "</".toList ++ tag ++ ['>'] := by
  have hr : isRawText tag = decide (tag ∈ RawNames) := by
    rw [Bool.eq_iff_iff]; simp [isRawText_iff]
  rw [serialize_eq, hwf.tree_eq, h]
  simp only [Html.ofKind, Html.ser, Html.serL_eq, Arena.forest, List.flatMap_map, serialize_eq]
  by_cases hv : tag ∈ VoidNames
  · simp [(isVoid_iff tag).2 hv, hv, startTag]
  · have : isVoid tag = false := by
      cases hh : isVoid tag
      · rfl
      · exact absurd ((isVoid_iff tag).1 hh) hv
    simp [this, hv, startTag, hr]

/-- **C24.** A text child of a script, style or noscript element is written verbatim; a text child
of any other element is escaped. -/
theorem C24_text (A : Arena NodeData) (c : Nat) (tag s : Str)
    (h : (A.data c).kind = .text s) :
    serialize A c (decide (tag ∈ RawNames)) = if tag ∈ RawNames then s else escText s := by
  unfold serialize Arena.fold
  cases A.next with
  | zero => simp [Arena.foldF, serKind, h]
  | succ k => simp [Arena.foldF, serKind, h]

/-- **C24.** The whole page is the doctype, if there is one, with its name, and what
`to_html_without_doctype` writes. -/
theorem C24_page (D : Document) :
    (D.doctype = none → D.toHtml = D.toHtmlWithoutDoctype) ∧
    ∀ name, D.doctype = some name →
      D.toHtml = "<!DOCTYPE ".toList ++ name ++ ">".toList ++ D.toHtmlWithoutDoctype := by
  constructor
  · intro h; unfold Document.toHtml Document.toHtmlWithoutDoctype; rw [h]; rfl
  · intro name h; unfold Document.toHtml Document.toHtmlWithoutDoctype; rw [h]; rfl

/-- A small document, `<html><body><br>…<script>1<2</script></body></html>`. -/
def serDemo : Document where
  arena :=
    { next := 5
      parent := fun n => if n = 1 then some 0 else if n = 2 then some 1 else if n = 3 then some 1
        else if n = 4 then some 3 else none
      children := fun n => if n = 0 then [1] else if n = 1 then [2, 3] else if n = 3 then [4] else []
      data := fun n => if n = 0 then Document.elem "html".toList
        else if n = 1 then Document.elem "body".toList
        else if n = 2 then Document.elem "br".toList
        else if n = 3 then Document.elem "script".toList
        else ⟨.text "1<2".toList, .html⟩ }
  root := 0
  doctype := none

example : serDemo.toBodyHtml = "<br><script>1<2</script>".toList := by decide +kernel

example : ({ serDemo with doctype := some "html".toList } : Document).toHtml =
    "<!DOCTYPE html><html><body><br><script>1<2</script></body></html>".toList := by decide +kernel

end Hotmeal
