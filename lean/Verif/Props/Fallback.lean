import Verif.Props.Browser
import Verif.Lemmas.RewriteNative

set_option autoImplicit false
set_option linter.unusedSectionVars false

/-!
# C50: content that the DOM interface rejects is inserted as HTML
-/

namespace Hotmeal

mutual
/-- The tree that the content stands for. -/
def InsertContent.tree : InsertContent → Html
  | .element tag attrs children => .element tag attrs (InsertContent.trees children)
  | .text s => .text s
  | .comment s => .comment s
/-- The trees that the contents stand for. -/
def InsertContent.trees : List InsertContent → List Html
  | [] => []
  | c :: cs => c.tree :: InsertContent.trees cs
end

mutual
/-- No element of the tree is a void element, contains raw text or has an attribute name with an empty
prefix. -/
def Html.ordinary : Html → Bool
  | .element tag attrs cs => !isVoid tag && !isRawText tag &&
    attrs.all (fun kv => decide (kv.1.prefix_ ≠ some [])) && ordinaryL cs
  | _ => true
/-- `ordinary` for every tree of a list. -/
def Html.ordinaryL : List Html → Bool
  | [] => true
  | c :: cs => c.ordinary && ordinaryL cs
end

theorem WebDom.writeAttrs_eq {attrs : Attrs} (h : ∀ kv ∈ attrs, kv.1.prefix_ ≠ some []) :
    WebDom.writeAttrs attrs = serAttrs attrs := by
  unfold WebDom.writeAttrs serAttrs
  induction attrs with
  | nil => rfl
  | cons kv attrs ih =>
    rw [List.flatMap_cons, List.flatMap_cons, ih fun kv hkv => h kv (by simp [hkv]),
      Wasm.domName_eq (h kv (by simp))]

mutual
/-- **C50**, partial: the HTML that the browser client writes for content whose names the DOM
rejects is the library's HTML for the same tree. Missing: void elements, elements with raw text and
attribute names with an empty prefix; for the first two the HTML differs (`C50_violated_void`,
`C50_violated_raw`). -/
theorem C50_fallback_html_partial : ∀ (c : InsertContent), c.tree.ordinary = true →
    WebDom.writeContent c = c.tree.ser false
  | .element tag attrs children, h => by
    simp only [InsertContent.tree, Html.ordinary, Bool.and_eq_true, Bool.not_eq_true',
      List.all_eq_true, decide_eq_true_eq] at h
    obtain ⟨⟨⟨h1, h2⟩, h3⟩, h4⟩ := h
    simp only [WebDom.writeContent, InsertContent.tree, Html.ser, h1, h2, WebDom.writeAttrs_eq h3,
      Bool.false_eq_true, if_false]
    rw [fallback_htmlL children h4]
    simp
  | .text s, _ => by simp [WebDom.writeContent, InsertContent.tree, Html.ser]
  | .comment s, _ => by simp [WebDom.writeContent, InsertContent.tree, Html.ser]
theorem fallback_htmlL : ∀ (cs : List InsertContent), Html.ordinaryL (InsertContent.trees cs) = true →
    WebDom.writeContents cs = Html.serL false (InsertContent.trees cs)
  | [], _ => rfl
  | c :: cs, h => by
    simp only [InsertContent.trees, Html.ordinaryL, Bool.and_eq_true] at h
    simp only [WebDom.writeContents, InsertContent.trees, Html.serL]
    rw [C50_fallback_html_partial c h.1, fallback_htmlL cs h.2]
end

/-- The HTML parser of the browser turns the library's HTML of a tree into that tree. -/
structure WebDom.Parses (dom : WebDom) (t : Html) : Prop where
  wf : (dom.fragment (t.ser false)).arena.WF
  tree : ∃ n rest, (dom.fragment (t.ser false)).arena.children (dom.fragment (t.ser false)).root =
    n :: rest ∧ (dom.fragment (t.ser false)).arena.tree n = t

/-- **C50**, partial: when the DOM rejects a name of an element, the content is still created as it
stands, provided that the browser's parser turns the library's HTML of it into the same tree. No
other node of the page changes. Missing: as above. -/
theorem C50_fallback_inserts_partial (dom : WebDom) {tag : Str} {attrs : Attrs}
    {children : List InsertContent} {e : Err} (hrej : dom.createWithAttrs tag attrs = .error e)
    (ho : (InsertContent.element tag attrs children).tree.ordinary = true)
    (hp : dom.Parses (InsertContent.element tag attrs children).tree) {A : Arena NodeData} (hA : A.WF) :
    ∃ A' m, dom.createInsertContent A (.element tag attrs children) = .ok (A', m) ∧ A'.WF ∧
      A.next ≤ m ∧ m < A'.next ∧ A'.parent m = none ∧
      A'.tree m = (InsertContent.element tag attrs children).tree ∧
      ∀ n, n < A.next → A'.data n = A.data n ∧ A'.parent n = A.parent n ∧ A'.children n = A.children n := by
  obtain ⟨n, rest, hn, ht⟩ := hp.tree
  obtain ⟨A', m, e1, hg, h1, h2, h3, h4⟩ := cloneSubtree_builds hp.wf n A hA
  refine ⟨A', m, ?_, hg.wf, h1, h2, h3, by rw [h4, ht],
    fun i hi => ⟨hg.data i hi, hg.parent i hi, hg.children i hi⟩⟩
  simp only [WebDom.createInsertContent, hrej, WebDom.viaHtml, C50_fallback_html_partial _ ho, hn,
    List.head?_cons]
  exact e1

/-- Names without prefix and namespace, for concrete content. -/
def exAttrs (attrs : List (String × String)) : Attrs :=
  attrs.map fun (k, v) => (⟨none, [], k.toList⟩, v.toList)

/-- A piece of content with a name that `WebDom.noAt` rejects. -/
def atContent : InsertContent := .element "p".toList (exAttrs [("@click", "a<b"), ("class", "k")])
  [.text "x & y".toList, .element "i".toList [] [.comment "z".toList]]

/-- The hypotheses of the C50 theorems hold for a `<p @click="a<b" class="k">` with some children, a DOM
that rejects `@`, and a parser that knows this piece of HTML. -/
example : WebDom.noAt.createWithAttrs "p".toList (exAttrs [("@click", "a<b"), ("class", "k")]) =
      .error .invalidName ∧ atContent.tree.ordinary = true ∧
    WebDom.writeContent atContent =
      "<p @click=\"a&lt;b\" class=\"k\">x &amp; y<i><!--z--></i></p>".toList ∧
    ({ WebDom.noAt with
        fragment := fun _ => { Document.ofForest [atContent.tree] with root := 2 } }).Parses
      atContent.tree := by
  refine ⟨by rfl, by decide +kernel, by decide +kernel, ?_, 3, [], ?_, rfl⟩
  · exact (ofForest_valid _ (by decide +kernel)).wf
  · decide +kernel

/-- **C50** is violated by void elements: the client closes them, and a parser takes the closing tag of
a `br` for a second `br`. -/
theorem C50_violated_void : WebDom.writeContent (.element "p".toList (exAttrs [("@click", "a")])
      [.element "br".toList [] []]) = "<p @click=\"a\"><br></br></p>".toList ∧
    (InsertContent.element "p".toList (exAttrs [("@click", "a")])
      [.element "br".toList [] []]).tree.ser false = "<p @click=\"a\"><br></p>".toList := by
  decide +kernel

/-- **C50** is violated by elements with raw text: the client escapes the text, and a parser does not
undo that. -/
theorem C50_violated_raw : WebDom.writeContent (.element "p".toList (exAttrs [("@click", "a")])
      [.element "script".toList [] [.text "1<2".toList]]) =
      "<p @click=\"a\"><script>1&lt;2</script></p>".toList ∧
    (InsertContent.element "p".toList (exAttrs [("@click", "a")])
      [.element "script".toList [] [.text "1<2".toList]]).tree.ser false =
      "<p @click=\"a\"><script>1<2</script></p>".toList := by
  decide +kernel

end Hotmeal
