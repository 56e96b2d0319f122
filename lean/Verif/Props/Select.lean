import Verif.Props.Mount

set_option autoImplicit false
set_option linter.unusedSectionVars false

/-!
# C64: which element a selector finds
-/

namespace Hotmeal

open Mount

/-- The node is an element with the given tag. -/
def Arena.HasTag (E : Arena NodeData) (n : Nat) (tag : String) : Prop :=
  ∃ attrs, (E.data n).kind = .element tag.toList attrs

theorem tagOf_eq {E : Arena NodeData} {n : Nat} {tag : String} : tagOf E n = some tag.toList ↔ E.HasTag n tag := by
  unfold tagOf Arena.HasTag
  cases (E.data n).kind <;> simp

theorem isElement_iff {E : Arena NodeData} {n : Nat} : isElement E n = true ↔ (E.data n).kind.IsElement := by
  unfold isElement NodeKind.IsElement
  cases (E.data n).kind <;> simp

/-- **C64.** The selector `"body"` stands for the first `body` or `frameset` among the children of the first
element of the page, if that is an `html` element. Otherwise there is an error and nothing is changed. -/
theorem C64_body_selector (E : Arena NodeData) (doc m : Nat) :
    resolveMountPoint E doc .body = .ok m ↔ ∃ html pre post pre' post',
      E.children doc = pre ++ html :: post ∧ (∀ n ∈ pre, ¬ (E.data n).kind.IsElement) ∧ E.HasTag html "html" ∧
      E.children html = pre' ++ m :: post' ∧ (E.HasTag m "body" ∨ E.HasTag m "frameset") ∧
      ∀ n ∈ pre', ¬ E.HasTag n "body" ∧ ¬ E.HasTag n "frameset" := by
  have h0 : resolveMountPoint E doc .body = .ok m ↔ documentBody E doc = some m := by
    unfold resolveMountPoint
    cases documentBody E doc <;> simp
  rw [h0]
  unfold documentBody
  simp only [bind, Option.bind_eq_some_iff, Option.ite_none_right_eq_some, List.find?_eq_some_iff_append,
    Bool.not_eq_true', decide_eq_true_eq, decide_eq_false_iff_not, isElement_iff, tagOf_eq, not_or]
  constructor
  · rintro ⟨html, ⟨_, pre, post, h1, h2⟩, h3, h4, pre', post', h5, h6⟩
    refine ⟨html, pre, post, pre', post', h1, fun n hn e => ?_, h3, h5, h4, h6⟩
    have := h2 n hn
    rw [isElement_iff.2 e] at this
    cases this
  · rintro ⟨html, pre, post, pre', post', h1, h2, h3, h5, h4, h6⟩
    refine ⟨html, ⟨?_, pre, post, h1, fun n hn => ?_⟩, h3, h4, pre', post', h5, h6⟩
    · obtain ⟨a, e⟩ := h3; exact ⟨_, _, e⟩
    · cases e : isElement E n with
      | false => rfl
      | true => exact absurd (isElement_iff.1 e) (h2 n hn)

/-- **C64.** Any other selector stands for the first element of the page, in the order of the text, that
matches it. -/
theorem C64_css_selector (E : Arena NodeData) (doc m : Nat) (sel : Selector) :
    resolveMountPoint E doc (.css sel) = .ok m ↔ ∃ pre post, E.descendants doc = pre ++ m :: post ∧
      (E.data m).kind.IsElement ∧ sel E m = true ∧ ∀ n ∈ pre, (E.data n).kind.IsElement → sel E n = false := by
  have h0 : resolveMountPoint E doc (.css sel) = .ok m ↔ querySelector E doc sel = some m := by
    show (match querySelector E doc sel with | some n => Except.ok n | none => Except.error Err.noMount) =
      Except.ok m ↔ _
    cases querySelector E doc sel <;> simp
  rw [h0]
  unfold querySelector
  rw [List.find?_eq_some_iff_append]
  simp only [Bool.and_eq_true, Bool.not_eq_true', Bool.and_eq_false_iff, isElement_iff]
  constructor
  · rintro ⟨⟨h1, h2⟩, pre, post, h3, h4⟩
    refine ⟨pre, post, h3, h1, h2, fun n hn e => ?_⟩
    rcases h4 n hn with h | h
    · rw [isElement_iff.2 e] at h; cases h
    · exact h
  · rintro ⟨pre, post, h3, h1, h2, h4⟩
    refine ⟨⟨h1, h2⟩, pre, post, h3, fun n hn => ?_⟩
    cases e : isElement E n with
    | false => exact .inl rfl
    | true => exact .inr (h4 n hn (isElement_iff.1 e))

/-- ASCII whitespace of the HTML standard. -/
def Blank (c : Char) : Prop := c = ' ' ∨ c = '\n' ∨ c = '\t' ∨ c = '\x0c' ∨ c = '\r'

theorem mem_splitOnP {α : Type} (p : α → Bool) (v s : List α) : s ∈ v.splitOnP p ↔
    (∀ c ∈ s, p c = false) ∧ ∃ u w, v = u ++ s ++ w ∧ (u = [] ∨ ∃ u' c, u = u' ++ [c] ∧ p c = true) ∧
      (w = [] ∨ ∃ c w', w = c :: w' ∧ p c = true) := by
  constructor
  · intro h
    generalize hk : v.length = k
    induction k using Nat.strongRecOn generalizing v s with
    | _ k ih =>
    by_cases hv : ∃ c ∈ v, p c = true
    · obtain ⟨t, c, r, rfl, ht, hc⟩ : ∃ t c r, v = t ++ c :: r ∧ (∀ x ∈ t, p x = false) ∧ p c = true := by
        clear ih h hk
        induction v with
        | nil => obtain ⟨_, h, _⟩ := hv; cases h
        | cons a v ih =>
          cases ha : p a with
          | true => exact ⟨[], a, v, rfl, by simp, ha⟩
          | false =>
            obtain ⟨t, c, r, rfl, h1, h2⟩ := ih (by
              obtain ⟨c, hc, e⟩ := hv
              rcases List.mem_cons.1 hc with rfl | hc
              · rw [ha] at e; cases e
              · exact ⟨c, hc, e⟩)
            refine ⟨a :: t, c, r, rfl, fun x hx => ?_, h2⟩
            rcases List.mem_cons.1 hx with rfl | hx
            · exact ha
            · exact h1 x hx
      rw [List.splitOnP_append_cons_of_forall_mem ht c hc] at h
      rcases List.mem_cons.1 h with rfl | h
      · exact ⟨ht, [], c :: r, rfl, .inl rfl, .inr ⟨c, r, rfl, hc⟩⟩
      · obtain ⟨h1, u, w, e, hu, hw⟩ := ih r.length (by rw [← hk]; simp; omega) r s h rfl
        refine ⟨h1, t ++ [c] ++ u, w, by rw [e]; simp, .inr ?_, hw⟩
        rcases hu with rfl | ⟨u', c', rfl, hc'⟩
        · exact ⟨t, c, by simp, hc⟩
        · exact ⟨t ++ [c] ++ u', c', by simp, hc'⟩
    · have hv : ∀ c ∈ v, p c = false := by
        intro c hc
        cases e : p c with
        | false => rfl
        | true => exact absurd ⟨c, hc, e⟩ hv
      rw [List.splitOnP_eq_singleton hv, List.mem_singleton] at h
      subst h
      exact ⟨hv, [], [], by simp, .inl rfl, .inl rfl⟩
  · rintro ⟨hs, u, w, rfl, hu, hw⟩
    have h1 : s ∈ (s ++ w).splitOnP p := by
      rcases hw with rfl | ⟨c, w', rfl, hc⟩
      · rw [List.append_nil, List.splitOnP_eq_singleton hs]; simp
      · rw [List.splitOnP_append_cons_of_forall_mem hs c hc]; simp
    rcases hu with rfl | ⟨u', c, rfl, hc⟩
    · exact h1
    · rw [List.append_assoc, List.append_assoc, List.singleton_append, List.splitOnP_append_cons _ _ hc]
      exact List.mem_append_right _ h1

/-- The value of the first attribute that is written with this name. -/
def FirstAttr (E : Arena NodeData) (n : Nat) (name value : Str) : Prop :=
  ∃ tag attrs pre key post, (E.data n).kind = .element tag attrs ∧ attrs = pre ++ (key, value) :: post ∧
    serName key = name ∧ ∀ kv ∈ pre, serName kv.1 ≠ name

theorem attrValue_iff {E : Arena NodeData} {n : Nat} {name value : Str} :
    attrValue E n name = some value ↔ FirstAttr E n name value := by
  unfold attrValue FirstAttr
  cases (E.data n).kind with
  | element tag attrs =>
    simp only [Option.map_eq_some_iff, List.find?_eq_some_iff_append, beq_iff_eq, Bool.not_eq_true',
      beq_eq_false_iff_ne, NodeKind.element.injEq]
    constructor
    · rintro ⟨⟨k, v⟩, ⟨h1, pre, post, h2, h3⟩, rfl⟩
      exact ⟨tag, attrs, pre, k, post, ⟨rfl, rfl⟩, h2, h1, h3⟩
    · rintro ⟨_, _, pre, k, post, ⟨rfl, rfl⟩, h2, h1, h3⟩
      exact ⟨(k, value), ⟨h1, pre, post, h2, h3⟩, rfl⟩
  | _ => simp

/-- **C64.** The selector `.s` matches the elements with a `class` attribute of which `s` is a word: it stands
between blanks or at an end of the attribute. -/
theorem C64_class_selector (E : Arena NodeData) (n : Nat) (s : Str) : (Css.cls s).matches E n = true ↔
    (∀ c ∈ s, ¬ Blank c) ∧ ∃ u w, FirstAttr E n "class".toList (u ++ s ++ w) ∧
      (u = [] ∨ ∃ u' c, u = u' ++ [c] ∧ Blank c) ∧ (w = [] ∨ ∃ c w', w = c :: w' ∧ Blank c) := by
  have hb : ∀ c : Char, (c == ' ' || c == '\n' || c == '\t' || c == '\x0c' || c == '\r') = true ↔ Blank c := by
    intro c
    simp [Blank, or_assoc]
  have hf : ∀ c : Char, (c == ' ' || c == '\n' || c == '\t' || c == '\x0c' || c == '\r') = false ↔ ¬ Blank c := by
    intro c
    rw [← hb, Bool.not_eq_true]
  have h0 : (Css.cls s).matches E n = true ↔ ∃ v, attrValue E n "class".toList = some v ∧ s ∈ words v := by
    unfold Css.matches
    cases attrValue E n "class".toList <;> simp
  rw [h0]
  simp only [attrValue_iff, words, mem_splitOnP, hb, hf]
  constructor
  · rintro ⟨v, h1, h2, u, w, rfl, h3⟩
    exact ⟨h2, u, w, h1, h3⟩
  · rintro ⟨h2, u, w, h1, h3⟩
    exact ⟨_, h1, h2, u, w, rfl, h3⟩

/-- **C64.** The selectors `#s`, `[name="value"]` and `[name]` look at the first attribute of the name. -/
theorem C64_attribute_selectors (E : Arena NodeData) (n : Nat) (name value : Str) :
    ((Css.attr name value).matches E n = true ↔ FirstAttr E n name value) ∧
    ((Css.id value).matches E n = true ↔ FirstAttr E n "id".toList value) ∧
    ((Css.has name).matches E n = true ↔ ∃ v, FirstAttr E n name v) := by
  refine ⟨?_, ?_, ?_⟩
  · unfold Css.matches; rw [decide_eq_true_iff, attrValue_iff]
  · unfold Css.matches; rw [decide_eq_true_iff, attrValue_iff]
  · unfold Css.matches
    rw [Option.isSome_iff_exists]
    simp only [attrValue_iff]

/-- A page with a document node, a comment, and a body. -/
def wholePage : Arena NodeData :=
  let P := (Document.ofForest [ex "div" [("class", "a wide b")] []]).arena
  let (P, d) := P.newNode ⟨.document, .html⟩
  let (P, c) := P.newNode ⟨.comment "x".toList, .html⟩
  match do let P ← P.append d c; P.append d 0 with
  | .ok P => P
  | .error _ => P

/-- The body of this page is found, and the element of class `wide` is found. -/
example : documentBody wholePage 4 = some 2 ∧
    querySelector wholePage 4 (Css.cls "wide".toList).matches = some 3 ∧
    querySelector wholePage 4 (Css.cls "wid".toList).matches = none := by decide +kernel

end Hotmeal
