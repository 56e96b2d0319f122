import Verif.Lemmas.Below
import Verif.Lemmas.TextSize
import Verif.Props.ReadBack
import Verif.Props.Json
import Verif.Props.Fallback

set_option autoImplicit false
set_option linter.unusedSectionVars false

/-!
# C84: from the text of two pages to the page that is shown

The other theorems about the browser start from documents. Here the server starts from the texts of two pages, and the
browser starts from the text of the old page.
-/

namespace Hotmeal

open Reader

/-- A parser of pages that does what the standard prescribes wherever `Reader` describes it, as in `ReadsPages`;
moreover, nodes are in the namespace of HTML, and attribute names are in lower case and have no prefix. -/
structure ParsesPages (html5 : Str → Document) : Prop where
  reads : ReadsPages html5
  html : ∀ text D, readPage text = some D → AllHtml (html5 text).arena
  simple : ∀ text D, readPage text = some D → AllSimple (html5 text).arena

/-- There is such a parser. -/
theorem parsesPages_reader : ParsesPages fun text => (readPage text).getD Document.new := by
  refine ⟨readsPages_reader, fun text D h => ?_, fun text D h => ?_⟩
  · simp only [h, Option.getD_some]; exact readPage_html h
  · simp only [h, Option.getD_some]; exact readPage_simple h

/-- A page: the name in the doctype, the attributes of html, head and body, the children of the head, what is between
head and body, and the children of the body. -/
structure PageTree where
  doctype : Str
  htmlAttrs : Attrs
  headAttrs : Attrs
  head : List Html
  gap : List Html
  bodyAttrs : Attrs
  body : List Html

namespace PageTree

/-- The page as a tree. -/
def tree (p : PageTree) : Html := .pageOf p.htmlAttrs p.headAttrs p.head p.gap p.bodyAttrs p.body

/-- The text of the page. -/
def text (p : PageTree) : Str := "<!DOCTYPE ".toList ++ p.doctype ++ ">".toList ++ p.tree.ser false

/-- The text of the page is read as the page (C83), and exactly the elements with certain tags are opaque. -/
def ok (isle : Str → Bool) (p : PageTree) : Bool :=
  okDoctype p.doctype && Html.okPage p.htmlAttrs p.headAttrs p.head p.gap p.bodyAttrs p.body &&
    !isle "body".toList && !p.bodyAttrs.marked &&
    Html.everyL (fun tag as _ => as.marked == isle tag) p.body

/-- The opaque elements are empty in the text. -/
def bare (isle : Str → Bool) (p : PageTree) : Bool := Html.everyL (fun tag _ cs => !isle tag || cs.isEmpty) p.body

/-- The DOM of the browser takes the tags and the attribute names in the body of the page. (It refuses names such as
`@click`, which the parser accepts: C49, C50.) -/
def accepted (dom : WebDom) (p : PageTree) : Bool :=
  dom.tagOk "body".toList && p.bodyAttrs.all (fun kv => dom.attrOk kv.1.loc) &&
    Html.everyL (fun tag as _ => dom.tagOk tag && as.all fun kv => dom.attrOk kv.1.loc) p.body

end PageTree

/-- A page with nothing but a body. -/
def PageTree.ofBody (cs : List Html) : PageTree := ⟨"html".toList, [], [], [], [], [], cs⟩

/-- What a parser makes of the text of a page. -/
structure Parsed (p : PageTree) (D : Document) (b : Nat) : Prop where
  plain : D.Plain b
  forest : D.bodyForest = p.body
  tree : D.arena.tree b = .element "body".toList p.bodyAttrs p.body
  html : AllHtml D.arena
  simple : AllSimple D.arena

theorem Parsed.of_tree {p : PageTree} {D : Document} (hD : D.Sound) (ht : D.arena.tree D.root = p.tree)
    (hok : Html.okPage p.htmlAttrs p.headAttrs p.head p.gap p.bodyAttrs p.body = true) (hh : AllHtml D.arena)
    (hs : AllSimple D.arena) {b : Nat} (hb : D.body = some b) : Parsed p D b := by
  simp only [Html.okPage, Bool.and_eq_true] at hok
  have hg := hok.1.1.1.1.2
  have hr := hok.1.2
  obtain ⟨b', b1, b2⟩ := body_kind hD.arena.wf hg ht
  rw [hb] at b1
  cases b1
  have hf : D.bodyForest = p.body := body_of_tree hD.arena.wf hg ht
  have hf' : D.arena.forest b = p.body := by
    unfold Document.bodyForest at hf
    rw [hb] at hf
    exact hf
  refine ⟨⟨hD, hb, ?_⟩, hf, b2, hh, hs⟩
  intro n attrs ha hk
  by_cases e : n = b
  · exact e
  · have := hD.arena.element_below (by rw [hf']; exact everyL_readable _ hr) ha e hk
    simp only [Bool.and_eq_true] at this
    simp at this

theorem Parsed.of_reads {html5 : Str → Document} (h : ParsesPages html5) {isle : Str → Bool} {p : PageTree}
    (hp : p.ok isle = true) {b : Nat} (hb : (html5 p.text).body = some b) : Parsed p (html5 p.text) b := by
  simp only [PageTree.ok, Bool.and_eq_true] at hp
  obtain ⟨⟨⟨⟨h1, h2⟩, _⟩, _⟩, _⟩ := hp
  obtain ⟨D, e1, e2, e3, e4⟩ := readPage_page h2 h1
  obtain ⟨r1, r2, r3⟩ := h.reads _ _ e1
  exact Parsed.of_tree r1 (r2.trans e3) h2 (h.html _ _ e1) (h.simple _ _ e1) hb

namespace Parsed

variable {isle : Str → Bool} {p q : PageTree} {D E : Document} {b c : Nat}

theorem below (h : Parsed p D b) : D.arena.forest b = p.body := by
  have := h.forest
  unfold Document.bodyForest at this
  rw [h.plain.body] at this
  exact this

theorem bodyKind (h : Parsed p D b) : (D.arena.data b).kind = .element "body".toList p.bodyAttrs := by
  obtain ⟨_, a, hk⟩ := Document.body_spec h.plain.body
  have ht := h.tree
  rw [h.plain.sound.arena.wf.tree_eq, hk] at ht
  simp only [Html.ofKind, Html.element.injEq] at ht
  rw [hk, ht.2.1]

theorem comparable (h : Parsed p D b) (h' : Parsed q E c) : Comparable D E b c :=
  ⟨h.plain, h'.plain, by rw [h.html, h'.html]⟩

theorem marks (h : Parsed p D b) (hp : p.ok isle = true) {n : Nat} (ha : D.arena.Anc b n) {tag : Str} {as : Attrs}
    (hk : (D.arena.data n).kind = .element tag as) : as.marked = isle tag := by
  simp only [PageTree.ok, Bool.and_eq_true, Bool.not_eq_true'] at hp
  by_cases e : n = b
  · subst e
    rw [h.bodyKind] at hk
    cases hk
    rw [hp.1.2, hp.1.1.2]
  · exact beq_iff_eq.1 (h.plain.sound.arena.element_below (by rw [h.below]; exact hp.2) ha e hk)

theorem islands (h : Parsed p D b) (hp : p.ok isle = true) (hv : p.bare isle = true) :
    D.Islands (fun tag _ => isle tag = true) b := by
  intro n tag as ha hk
  have h1 : as.isOpaque = isle tag := h.marks hp ha hk
  rw [h1]
  refine ⟨Iff.rfl, fun e2 => ?_⟩
  by_cases e : n = b
  · subst e
    rw [h.bodyKind] at hk
    cases hk
    simp only [PageTree.ok, Bool.and_eq_true, Bool.not_eq_true'] at hp
    rw [hp.1.1.2] at e2; cases e2
  · have := h.plain.sound.arena.element_below (by rw [h.below]; exact hv) ha e hk
    simp only [e2, Bool.not_true, Bool.false_or, List.isEmpty_iff] at this
    exact List.map_eq_nil_iff.1 this

theorem opaqueFixed {H : Type} [DecidableEq H] {hashNode : HKind → Option Str → List H → H} (h : Parsed p D b)
    (h' : Parsed q E c) (hp : p.ok isle = true) (hq : q.ok isle = true) (vp : p.bare isle = true)
    (vq : q.bare isle = true) (hc : NoCollision hashNode (buildTree D b) (diffable E) c) :
    OpaqueFixed hashNode D E b c := by
  refine opaqueFixed_of_islands (h.comparable h') hc ?_ (h.islands hp vp) (h'.islands hq vq)
  simp only [PageTree.ok, Bool.and_eq_true, Bool.not_eq_true'] at hp
  intro _ e
  rw [hp.1.1.2] at e; cases e

theorem names (h : Parsed p D b) : D.NamesIn bareName b :=
  fun n tag as _ hk kv hkv => (h.simple n tag as hk kv hkv).1

theorem noEmptyPrefix (h : Parsed p D b) : D.NoEmptyPrefix := by
  intro n tag as hk kv hkv e
  rw [(h.simple n tag as hk kv hkv).1.1] at e
  cases e

theorem serName_bare {q : QualName} (h : bareName q) : serName q = q.loc ∧ Wasm.domName q = q.loc := by
  obtain ⟨p, n, l⟩ := q
  obtain ⟨h1, h2⟩ := h
  simp only at h1 h2
  subst h1 h2
  exact ⟨rfl, rfl⟩

theorem lower (h : Parsed p D b) : D.arena.Lower := by
  intro n _ tag as hk kv hkv
  obtain ⟨h1, h2⟩ := h.simple n tag as hk kv hkv
  rw [(serName_bare h1).1]
  exact h2

theorem elemBelow (h : Parsed p D b) : D.arena.ElemBelow b := by
  intro n ha hc
  have hs := h.plain.sound.arena
  cases e : (D.arena.data n).kind with
  | element tag as => exact ⟨tag, as, rfl⟩
  | text s => exact absurd (hs.leaf n (.inl ⟨s, e⟩)) hc
  | comment s => exact absurd (hs.leaf n (.inr ⟨s, e⟩)) hc
  | document => exact absurd e (Comparable.not_document D h.plain ha)

theorem kept (h : Parsed p D b) (hp : p.ok isle = true) {dom : WebDom} (hd : p.accepted dom = true) :
    D.AllIn dom.KeepsTag dom.KeepsName b := by
  simp only [PageTree.ok, Html.okPage, Bool.and_eq_true] at hp
  have hr := hp.1.1.1.2.1.2
  simp only [PageTree.accepted, Bool.and_eq_true] at hd
  obtain ⟨⟨d1, d2⟩, d3⟩ := hd
  intro n tag as ha hk
  have hs := h.plain.sound.arena
  have hq : ∀ kv ∈ as, dom.attrOk kv.1.loc = true → dom.KeepsName kv.1 := by
    intro kv hkv ho
    obtain ⟨h1, h2⟩ := h.simple n tag as hk kv hkv
    obtain ⟨e1, e2⟩ := serName_bare h1
    unfold WebDom.KeepsName
    rw [e1, e2]
    exact ⟨⟨ho, h2⟩, ⟨ho, h2⟩⟩
  by_cases e : n = b
  · subst e
    rw [h.bodyKind] at hk
    cases hk
    exact ⟨⟨d1, by decide +kernel⟩, fun kv hkv => hq kv hkv (List.all_eq_true.1 d2 kv hkv)⟩
  · have g1 := hs.element_below (by rw [h.below]; exact d3) ha e hk
    have g2 := hs.element_below (by rw [h.below]; exact everyL_readable _ hr) ha e hk
    simp only [Bool.and_eq_true] at g1 g2
    exact ⟨⟨g1.1, lowerCase_of_okTag g2.1.1⟩, fun kv hkv => hq kv hkv (List.all_eq_true.1 g1.2 kv hkv)⟩

/-- A parsed page is layered when the page is. -/
theorem layered (h : Parsed p D b) {rank : Str → Nat} {m : Nat} (hm : rank "body".toList < m)
    (hl : Html.layeredL rank m (rank "body".toList) p.body = true) : Layered (rankOf rank m) D b :=
  layered_of_tree h.plain.sound.arena h.bodyKind hm (by rw [h.below]; exact hl)

end Parsed

/-- A body that was read has no more nodes than its text has characters, apart from the body element. -/
theorem Parsed.size_le_body {p : PageTree} {D : Document} {b : Nat} (h : Parsed p D b)
    (hok : Html.okPage p.htmlAttrs p.headAttrs p.head p.gap p.bodyAttrs p.body = true) :
    D.size ≤ (Html.serL false p.body).length + 1 := by
  simp only [Html.okPage, Bool.and_eq_true] at hok
  have hr := hok.1.2
  have hl := h.plain.sound.arena.leafy
  have hw := hl.wf
  have hcs : (D.arena.children b).map D.arena.tree = p.body := by
    have := h.forest
    unfold Document.bodyForest at this
    rw [h.plain.body] at this
    exact this
  have key : ((D.arena.children b).map D.arena.descendants).flatten.length ≤ (Html.serL false p.body).length := by
    rw [← hcs]
    refine Arena.WF.descendants_sum _ fun c hc => ?_
    have hmem : D.arena.tree c ∈ p.body := by rw [← hcs]; exact List.mem_map_of_mem hc
    exact hl.descendants_le _ c _ _ rfl (readable_of_mem _ _ hr _ hmem)
  unfold Document.size
  rw [h.plain.body]
  show (D.arena.descendants b).length ≤ _
  rw [hw.descendants_eq, List.length_cons]
  exact Nat.succ_le_succ key

/-- The body of a page that was read has no more nodes than the text of the page has characters. -/
theorem Parsed.size_le {p : PageTree} {D : Document} {b : Nat} (h : Parsed p D b)
    (hok : Html.okPage p.htmlAttrs p.headAttrs p.head p.gap p.bodyAttrs p.body = true) :
    D.size ≤ p.text.length := by
  refine Nat.le_trans (h.size_le_body hok) ?_
  have hser : (Html.serL false p.body).length + 1 ≤ p.text.length := by
    have hv1 : isVoid "html".toList = false := by decide +kernel
    have hv2 : isVoid "body".toList = false := by decide +kernel
    have hw1 : isRawText "html".toList = false := by decide +kernel
    have hw2 : isRawText "body".toList = false := by decide +kernel
    have happ : ∀ (l m : List Html), Html.serL false (l ++ m) = Html.serL false l ++ Html.serL false m := by
      intro l m
      induction l with
      | nil => rfl
      | cons x l ih => simp only [List.cons_append, Html.serL, ih, List.append_assoc]
    unfold PageTree.text PageTree.tree Html.pageOf
    simp only [Html.ser, Html.serL, hv1, hv2, hw1, hw2, happ, List.length_append, List.length_cons, Bool.false_eq_true,
      if_false]
    omega
  exact hser

theorem PageTree.okPage_of_ok {isle : Str → Bool} {p : PageTree} (hp : p.ok isle = true) :
    Html.okPage p.htmlAttrs p.headAttrs p.head p.gap p.bodyAttrs p.body = true := by
  simp only [PageTree.ok, Bool.and_eq_true] at hp
  exact hp.1.1.1.2

/-- A parser that follows the standard finds a body in the text of a page. -/
theorem ParsesPages.body {html5 : Str → Document} (h : ParsesPages html5) {isle : Str → Bool} {p : PageTree}
    (hp : p.ok isle = true) :
    ∃ b, (html5 p.text).body = some b := by
  simp only [PageTree.ok, Bool.and_eq_true] at hp
  obtain ⟨⟨⟨⟨h1, h2⟩, _⟩, _⟩, _⟩ := hp
  obtain ⟨D, e1, e2, e3, e4⟩ := readPage_page h2 h1
  obtain ⟨r1, r2, r3⟩ := h.reads _ _ e1
  have hg : Html.okGap p.gap = true := by
    simp only [Html.okPage, Bool.and_eq_true] at h2
    exact h2.1.1.1.1.2
  obtain ⟨b, hb, _⟩ := body_kind r1.arena.wf hg (r2.trans e3)
  exact ⟨b, hb⟩

/-- The text of a page begins with a doctype, so that it goes to the parser as it is. -/
theorem PageTree.parse_text (html5 : Str → Document) (p : PageTree) : parseWith html5 p.text = html5 p.text :=
  (C32_doctype_kept html5 p.text).1 (startsWithDoctype_written _ _)

variable {H : Type} [DecidableEq H] {hashNode : HKind → Option Str → List H → H}

/-- **C84**, partial: the server reads the texts of two pages and writes the difference as JSON; the browser has loaded
the old text and applies the JSON. Then the body has the inner HTML that it would have if the browser had loaded the
new text. Missing: pages that do not meet `PageTree.ok` (C83), opaque elements that are not recognised by their tags or
have content (C36; with content, see `C84_scripts_partial`), names that the DOM refuses (C49, C50), collisions of
hashes (C03), and moves of a node below itself (C02). -/
theorem C84_text_to_page_partial (dom : WebDom) {html5 browser : Str → Document} (hs : ParsesPages html5)
    (hb : ParsesPages browser) {isle : Str → Bool} {p q : PageTree} (hp : p.ok isle = true) (hq : q.ok isle = true)
    (vp : p.bare isle = true) (vq : q.bare isle = true) (hd : q.accepted dom = true)
    {old new : Document} (hold : parseWith html5 p.text = old) (hnew : parseWith html5 q.text = new) {ob nb eb : Nat}
    (e1 : old.body = some ob) (e2 : new.body = some nb) (e3 : (browser p.text).body = some eb)
    (hc : NoCollision hashNode (buildTree old ob) (diffable new) nb)
    (hf : NoMoveBelowSelf hashNode old new ob nb ∨ NoInversion hashNode old new ob nb)
    (hsz : p.text.length + q.text.length ≤ 2 ^ 30) :
    ∃ s count E', Json.diffHtml hashNode old new = .ok s ∧
      Json.applyJson dom eb (browser p.text).arena s = some (count, E') ∧
      (E'.tree eb).inner = (browser q.text).toBodyHtml := by
  rw [PageTree.parse_text] at hold hnew
  subst hold hnew
  have h1 := Parsed.of_reads hs hp e1
  have h2 := Parsed.of_reads hs hq e2
  have h3 := Parsed.of_reads hb hp e3
  obtain ⟨fb, e4⟩ := hb.body hq
  have h4 := Parsed.of_reads hb hq e4
  have hcm := h1.comparable h2
  have hs1 := h1.size_le (PageTree.okPage_of_ok hp)
  have hs2 := h2.size_le (PageTree.okPage_of_ok hq)
  obtain ⟨s, count, E', g1, g2, g3⟩ := Json.C31_json_round_trip_partial dom hcm hc
    (h1.opaqueFixed h2 hp hq vp vq hc) hf plainNames_bare h1.names h2.names h2.noEmptyPrefix (by omega)
    (h2.kept hq hd) h3.plain.sound.arena.wf (by
      have := (Document.body_spec e3).1
      have := (h3.plain.sound.arena.wf.mem_iff _ _).1 this
      exact (h3.plain.sound.arena.wf.lt_of_parent _ _ this).1) h3.elemBelow h3.lower (by rw [h3.tree, h1.tree])
  refine ⟨s, count, E', g1, g2, ?_⟩
  rw [g3, toBodyHtml_eq, toBodyHtml_eq, h2.forest, h4.forest]

/-- **C84**, partial: for pages whose elements can be ranked such that every element ranks above the one it is in,
nothing has to be known about what the server matches. Missing: as above. -/
theorem C84_layered_partial (dom : WebDom) {html5 browser : Str → Document} (hs : ParsesPages html5)
    (hb : ParsesPages browser) {isle : Str → Bool} {p q : PageTree} (hp : p.ok isle = true) (hq : q.ok isle = true)
    (vp : p.bare isle = true) (vq : q.bare isle = true) (hd : q.accepted dom = true)
    {rank : Str → Nat} {m : Nat} (hm : rank "body".toList < m)
    (lp : Html.layeredL rank m (rank "body".toList) p.body = true)
    (lq : Html.layeredL rank m (rank "body".toList) q.body = true)
    {old new : Document} (hold : parseWith html5 p.text = old) (hnew : parseWith html5 q.text = new)
    (hc : ∀ ob nb, old.body = some ob → new.body = some nb → NoCollision hashNode (buildTree old ob) (diffable new) nb)
    (hsz : p.text.length + q.text.length ≤ 2 ^ 30) :
    ∃ s count eb E', Json.diffHtml hashNode old new = .ok s ∧ (browser p.text).body = some eb ∧
      Json.applyJson dom eb (browser p.text).arena s = some (count, E') ∧
      (E'.tree eb).inner = (browser q.text).toBodyHtml := by
  have hold' := hold
  have hnew' := hnew
  rw [PageTree.parse_text] at hold hnew
  obtain ⟨ob, e1⟩ := hs.body hp
  obtain ⟨nb, e2⟩ := hs.body hq
  obtain ⟨eb, e3⟩ := hb.body hp
  have h1 := Parsed.of_reads hs hp e1
  have h2 := Parsed.of_reads hs hq e2
  rw [hold] at h1 e1
  rw [hnew] at h2 e2
  have hcm := h1.comparable h2
  have hc := hc ob nb e1 e2
  obtain ⟨s, count, E', g1, g2, g3⟩ := C84_text_to_page_partial dom hs hb hp hq vp vq hd hold' hnew' e1 e2 e3 hc
    (.inr (noInversion_of_layered hcm hc (h1.opaqueFixed h2 hp hq vp vq hc).agree
      (h1.layered hm lp) (h2.layered hm lq))) hsz
  exact ⟨s, count, eb, E', g1, e3, g2, g3⟩

/-- The page that a browser shows when it has loaded a text. -/
def loadWith (browser : Str → Document) (text : Str) : Page := ⟨(browser text).arena, (browser text).body.getD 0⟩

/-- **C84**, partial, for a session: a browser loads the page of a route and gets every change as bytes, while the
server reads and compares the texts that it is given, whatever else is called on it. At any time at which the browser
has missed no change, the body has the inner HTML that it would have if the browser loaded the text that is cached.
Missing: as above; `cache_html` for the route is not called (C49). -/
theorem C84_session_partial (dom : WebDom) {html5 browser : Str → Document} (hs : ParsesPages html5)
    (hb : ParsesPages browser) (route : Str) (served : PageTree → Prop)
    {isle : Str → Bool} (hok : ∀ p, served p → p.ok isle = true ∧ p.bare isle = true ∧ p.accepted dom = true) {rank : Str → Nat} {m : Nat}
    (hm : rank "body".toList < m) (hl : ∀ p, served p → Html.layeredL rank m (rank "body".toList) p.body = true)
    (hc : ∀ p q, served p → served q → ∀ ob nb, (html5 p.text).body = some ob → (html5 q.text).body = some nb →
      NoCollision hashNode (buildTree (html5 p.text) ob) (diffable (html5 q.text)) nb)
    (calls : List (Bool × Server.Call)) (hcalls : ∀ c ∈ calls, c.2.Follows (fun h => ∃ p, served p ∧ h = p.text) route)
    (S : Server) {p0 : PageTree} (hp0 : served p0) (hS : S.html route = some p0.text)
    (hmiss : S.MissesNone (fun a b => diff hashNode (parseWith html5 a) (parseWith html5 b)) route calls)
    (hsize : ∀ p, served p → p.text.length ≤ 2 ^ 29)
    (hbytes : ∀ e ∈ Postcard.sent (fun a b => diff hashNode (parseWith html5 a) (parseWith html5 b)) route S calls,
      (Postcard.writeEvent e).length < 2 ^ 32) :
    ∃ S' p, Postcard.byteRun dom (fun a b => diff hashNode (parseWith html5 a) (parseWith html5 b)) (loadWith browser) route S
        (loadWith browser p0.text) calls = (S', p) ∧
      S' = S.runAll (fun a b => diff hashNode (parseWith html5 a) (parseWith html5 b)) (calls.map Prod.snd) ∧
      ∀ h, S'.html route = some h →
        (∃ q, served q ∧ h = q.text) ∧ (p.arena.tree p.body).inner = (browser h).toBodyHtml := by
  have hpb : ∀ p, served p → Parsed p (browser p.text) (loadWith browser p.text).body := by
    intro p hp
    obtain ⟨b, e⟩ := hb.body (hok p hp).1
    have : (loadWith browser p.text).body = b := by unfold loadWith; rw [e]; rfl
    rw [this]
    exact Parsed.of_reads hb (hok p hp).1 e
  have hps : ∀ p, served p → ∃ b, (parseWith html5 p.text).body.getD 0 = b ∧ (html5 p.text).body = some b ∧
      Parsed p (parseWith html5 p.text) b := by
    intro p hp
    obtain ⟨b, e⟩ := hs.body (hok p hp).1
    rw [PageTree.parse_text]
    exact ⟨b, by rw [e]; rfl, e, Parsed.of_reads hs (hok p hp).1 e⟩
  obtain ⟨S', p, e1, e2, e3⟩ := Postcard.C49_reconnect_bytes_partial (hashNode := hashNode) (N := bareName) dom
    (parseWith html5) (fun h => (parseWith html5 h).body.getD 0) (loadWith browser) route
    (fun h => ∃ p, served p ∧ h = p.text) plainNames_bare
    (by
      rintro _ ⟨p, hp, rfl⟩
      have h3 := hpb p hp
      obtain ⟨b, h1, _, h2⟩ := hps p hp
      simp only [h1]
      refine ⟨h3.plain.sound.arena.wf, ?_, h3.elemBelow, by rw [h2.tree]; exact congrArg Html.unq h3.tree, h3.lower⟩
      have hm := (Document.body_spec h3.plain.body).1
      have hm := (h3.plain.sound.arena.wf.mem_iff _ _).1 hm
      exact (h3.plain.sound.arena.wf.lt_of_parent _ _ hm).1)
    (by
      rintro _ _ ⟨p, hp, rfl⟩ ⟨q, hq, rfl⟩
      obtain ⟨b, e1, e2, h1⟩ := hps p hp
      obtain ⟨c, e3, e4, h2⟩ := hps q hq
      simp only [e1, e3]
      have hcm := h1.comparable h2
      have hc' : NoCollision hashNode (buildTree (parseWith html5 p.text) b) (diffable (parseWith html5 q.text)) c := by
        rw [PageTree.parse_text, PageTree.parse_text]
        exact hc p q hp hq b c e2 e4
      have ho := h1.opaqueFixed h2 (hok p hp).1 (hok q hq).1 (hok p hp).2.1 (hok q hq).2.1 hc'
      exact ⟨hcm, hc', ho.agree, fun _ => ho.same,
        .inr (noInversion_of_layered hcm hc' ho.agree (h1.layered hm (hl p hp)) (h2.layered hm (hl q hq))),
        ⟨h1.names, h2.names⟩,
        fun ps e => C31_names_from_new dom hcm hc' ho.agree (h2.kept (hok q hq).1 (hok q hq).2.2) e⟩)
    calls hcalls S p0.text hS ⟨p0, hp0, rfl⟩ hmiss
    (by
      rintro _ ⟨p, hp, rfl⟩
      obtain ⟨b, _, _, h1⟩ := hps p hp
      exact Nat.le_trans (h1.size_le (PageTree.okPage_of_ok (hok p hp).1)) (hsize p hp)) hbytes
  refine ⟨S', p, e1, e2, fun h hh => ?_⟩
  have hsv : ∀ (calls : List (Bool × Server.Call)) (S : Server),
      (∀ c ∈ calls, c.2.Follows (fun h => ∃ p, served p ∧ h = p.text) route) →
      (∀ h, S.html route = some h → ∃ p, served p ∧ h = p.text) →
      ∀ h, (S.runAll (fun a b => diff hashNode (parseWith html5 a) (parseWith html5 b)) (calls.map Prod.snd)).html route =
        some h → ∃ p, served p ∧ h = p.text := by
    intro calls
    induction calls with
    | nil => intro S _ hS h hh; exact hS h hh
    | cons c cs ih =>
      intro S hc hS h hh
      exact ih _ (fun d hd => hc d (by simp [hd])) (Postcard.run_ok _ route _ S c.2 (hc c (by simp)) hS).1 h hh
  obtain ⟨q, hq, rfl⟩ := hsv calls S hcalls (fun h hh => by rw [hS] at hh; cases hh; exact ⟨p0, hp0, rfl⟩) h (by
    rw [← e2]; exact hh)
  refine ⟨⟨q, hq, rfl⟩, ?_⟩
  obtain ⟨c, _, _, h2⟩ := hps q hq
  rw [e3 _ hh, toBodyHtml_eq, toBodyHtml_eq, h2.forest, (hpb q hq).forest]

/-! ### Concrete cases -/

/-- A page with a list and an element for a script. -/
def shopOld : PageTree where
  doctype := "html".toList
  htmlAttrs := exAttrs [("lang", "en")]
  headAttrs := []
  head := [ex "title" [] [.text "a < b".toList]]
  gap := [.text "\n".toList]
  bodyAttrs := exAttrs [("class", "k")]
  body := [ex "h1" [] [.text "Shop & co".toList],
    ex "ul" [("id", "l")] [ex "li" [] [.text "one".toList], ex "li" [("title", "2 \"x\"")] [ex "b" [] [.text "two".toList]]],
    .comment " end ".toList, ex "x-cart" [("data-hotmeal-opaque", "")] []]

/-- The list has one more item, the items are in another order, and texts and attributes have changed; the
element for the script is at the beginning. -/
def shopNew : PageTree where
  doctype := "html".toList
  htmlAttrs := exAttrs [("lang", "en")]
  headAttrs := []
  head := [ex "title" [] [.text "a < b".toList]]
  gap := []
  bodyAttrs := exAttrs [("class", "k")]
  body := [ex "x-cart" [("data-hotmeal-opaque", ""), ("title", "Cart")] [], .text "\n".toList, ex "h1" [("class", "big")] [.text "Shop & sons".toList],
    ex "ul" [("id", "l")] [ex "li" [] [ex "b" [] [.text "two".toList]], ex "li" [] [.text "three".toList, ex "br" [] []],
      ex "li" [] [.text "one".toList]]]

/-- Ranks for the elements of these pages. -/
def shopRank (tag : Str) : Nat :=
  if tag = "body".toList then 0 else if tag = "ul".toList ∨ tag = "h1".toList then 1 else if tag = "li".toList then 2
  else if tag = "b".toList then 3 else 4

/-- The opaque elements of these pages. -/
def shopIsle (tag : Str) : Bool := tag == "x-cart".toList

/-- The parser of the examples. -/
def readHtml5 (text : Str) : Document := (readPage text).getD Document.new

theorem shop_ok : shopOld.ok shopIsle = true ∧ shopNew.ok shopIsle = true ∧ shopOld.bare shopIsle = true ∧ shopNew.bare shopIsle = true ∧
    shopNew.accepted WebDom.lenient = true ∧
    shopOld.accepted WebDom.lenient = true ∧ shopRank "body".toList < 5 ∧
    Html.layeredL shopRank 5 (shopRank "body".toList) shopOld.body = true ∧
    Html.layeredL shopRank 5 (shopRank "body".toList) shopNew.body = true ∧
    shopOld.text.length + shopNew.text.length ≤ 1000 := by
  decide +kernel

/-- The hypotheses of `C84_layered_partial` hold for them, and so does its conclusion. -/
example : ∃ s count eb E', Json.diffHtml Shape.node (parseWith readHtml5 shopOld.text) (parseWith readHtml5 shopNew.text) = .ok s ∧
    (readHtml5 shopOld.text).body = some eb ∧
    Json.applyJson WebDom.lenient eb (readHtml5 shopOld.text).arena s = some (count, E') ∧
    (E'.tree eb).inner = (readHtml5 shopNew.text).toBodyHtml := by
  obtain ⟨h1, h2, v1, v2, h3, h4, h5, h6, h7, h8⟩ := shop_ok
  exact C84_layered_partial (hashNode := Shape.node) WebDom.lenient (html5 := readHtml5) (browser := readHtml5)
    parsesPages_reader parsesPages_reader h1 h2 v1 v2 h3 h5 h6 h7 rfl rfl (fun ob nb _ _ => noCollision_shape _ _ _) (by omega)

/-- The patches are not trivial. -/
example : (match Hotmeal.diff Shape.node (readHtml5 shopOld.text) (readHtml5 shopNew.text) with
    | .ok ps => decide (ps.length = 16)
    | .error _ => false) = true ∧
    (readHtml5 shopNew.text).toBodyHtml = ("<x-cart data-hotmeal-opaque=\"\" title=\"Cart\"></x-cart>\n<h1 class=\"big\">Shop &amp; sons</h1><ul id=\"l\"><li><b>two</b></li>" ++
      "<li>three<br></li><li>one</li></ul>").toList := by
  decide +kernel

/-- The hypotheses of `C84_session_partial` hold for a session in which these two pages are served. -/
example (calls : List (Bool × Server.Call))
    (hcalls : ∀ c ∈ calls, c.2 = .diffRoute "/".toList shopNew.text ∨ c.2 = .diffRoute "/".toList shopOld.text) (S : Server) :
    (∀ p, (p = shopOld ∨ p = shopNew) → p.ok shopIsle = true ∧ p.bare shopIsle = true ∧ p.accepted WebDom.lenient = true ∧
      Html.layeredL shopRank 5 (shopRank "body".toList) p.body = true ∧ p.text.length ≤ 2 ^ 29) ∧
    (∀ c ∈ calls, c.2.Follows (fun h => ∃ p, (p = shopOld ∨ p = shopNew) ∧ h = p.text) "/".toList) ∧
    ((∀ c ∈ calls, c.1 = true) →
      S.MissesNone (fun a b => diff Shape.node (parseWith readHtml5 a) (parseWith readHtml5 b)) "/".toList calls) := by
  obtain ⟨h1, h2, v1, v2, h3, h4, h5, h6, h7, h8⟩ := shop_ok
  refine ⟨?_, ?_, ?_⟩
  · rintro p (rfl | rfl)
    · exact ⟨h1, v1, h4, h6, by omega⟩
    · exact ⟨h2, v2, h3, h7, by omega⟩
  · intro c hc
    rcases hcalls c hc with h | h <;> rw [h]
    · exact fun _ => ⟨shopNew, .inr rfl, rfl⟩
    · exact fun _ => ⟨shopOld, .inl rfl, rfl⟩
  · clear hcalls
    intro hon
    induction calls generalizing S with
    | nil => trivial
    | cons c cs ih => exact ⟨.inl (hon c (by simp)), ih _ (fun d hd => hon d (by simp [hd]))⟩

/-! ### Violations -/

/-- Does the browser show the new page in the end? `none` when applying the patches fails. -/
def PageTree.arrives (p : PageTree) (dom : WebDom) (q : PageTree) : Option Bool :=
  match (readHtml5 p.text).body, Json.diffHtml Shape.node (readHtml5 p.text) (readHtml5 q.text) with
  | some eb, .ok s =>
    match Json.applyJson dom eb (readHtml5 p.text).arena s with
    | some (_, E') => some (decide ((E'.tree eb).inner = (readHtml5 q.text).toBodyHtml))
    | none => none
  | _, _ => none

/-- **C84** is violated: there are two pages that can be read and have no opaque elements, for which the patches apply
in a browser whose DOM takes all names but the browser does not show the new page; and there are two pages that differ
in one attribute that the parser accepts and the DOM does not, for which applying the patches fails. -/
theorem C84_violated :
    (∃ p q : PageTree, p.ok (fun _ => false) = true ∧ q.ok (fun _ => false) = true ∧ q.accepted WebDom.lenient = true ∧
      p.arrives WebDom.lenient q = some false) ∧
    (∃ p q : PageTree, p.ok (fun _ => false) = true ∧ q.ok (fun _ => false) = true ∧ p.arrives WebDom.noAt q = none) :=
  ⟨⟨.ofBody bad1, .ofBody bad2, by decide +kernel⟩,
   ⟨.ofBody [ex "p" [] []], .ofBody [ex "p" [("@click", "go()")] []], by decide +kernel⟩⟩

end Hotmeal
