import Verif.Lemmas.ReadSound
import Verif.Props.ParseInput
import Verif.Props.Fallback
import Verif.Props.Serialize
import Verif.Props.RoundTrip
import Verif.Props.Same

set_option autoImplicit false
set_option linter.unusedSectionVars false

/-!
# C83: what is written can be read back

The HTML that the library writes for a page is turned back into the same page by a parser that follows the standard
(`Spec/Reader.lean`). The conditions on the page are executable (`Html.okPage`, `Html.readableL`); each of them is
there because the reader, the standard or the writer needs it, and the violations at the end show pages that do not
meet them and do change.
-/

namespace Hotmeal

open Reader

/-- A parser of pages that does what the standard prescribes wherever `Reader` describes it: its document is sound and
has the same tree and the same doctype. -/
def ReadsPages (html5 : Str → Document) : Prop :=
  ∀ text D, readPage text = some D →
    (html5 text).Sound ∧ (html5 text).arena.tree (html5 text).root = D.arena.tree D.root ∧ (html5 text).doctype = D.doctype

/-- A parser of fragments that does what the standard prescribes wherever `Reader` describes it. -/
def ReadsFragments (frag : Str → Document) : Prop :=
  ∀ text D, readFragment text = some D →
    (frag text).Sound ∧ (frag text).arena.tree (frag text).root = D.arena.tree D.root

/-- There is such a parser of pages. -/
theorem readsPages_reader : ReadsPages fun text => (readPage text).getD Document.new := by
  intro text D h
  simp only [h, Option.getD_some, and_self, and_true]
  exact readPage_sound h

/-- There is such a parser of fragments. -/
theorem readsFragments_reader : ReadsFragments fun text => (readFragment text).getD Document.new := by
  intro text D h
  simp only [h, Option.getD_some, and_true]
  exact readFragment_sound h

theorem anyCase_self (kw : Str) : AnyCase kw kw := by
  refine ⟨rfl, fun p hp => .inl ?_⟩
  obtain ⟨i, h1, h2⟩ := List.getElem_of_mem hp
  rw [List.getElem_zip] at h2
  rw [← h2]

theorem startsWithDoctype_written (name rest : Str) :
    StartsWithDoctype ("<!DOCTYPE ".toList ++ name ++ ">".toList ++ rest) := by
  refine ⟨[], "<!DOCTYPE".toList, [' '] ++ name ++ ">".toList ++ rest, ?_, by simp, by decide +kernel⟩
  have : "<!DOCTYPE ".toList = "<!DOCTYPE".toList ++ [' '] := by decide +kernel
  rw [this]
  simp only [List.append_assoc, List.nil_append]

theorem page_ser_start (ha hda ba : Attrs) (hs gap cs : List Html) :
    ∃ rest, (Html.pageOf ha hda hs gap ba cs).ser false = "<html".toList ++ rest := by
  have v1 : isVoid "html".toList = false := by decide +kernel
  have e : "<html".toList = '<' :: "html".toList := by decide +kernel
  simp only [Html.pageOf, Html.ser, v1, Bool.false_eq_true, if_false, e, List.append_assoc, List.cons_append]
  exact ⟨_, rfl⟩

theorem html_not_doctype (rest : Str) :
    hasDoctypePrefix ("<html".toList ++ rest) = false ∧ hasHtmlStructure ("<html".toList ++ rest) = true := by
  constructor
  · have e2 : "<html".toList = ['<', 'h', 't', 'm', 'l'] := by decide +kernel
    rw [e2]
    unfold hasDoctypePrefix
    have e3 : "<!doctype".toList = ['<', '!', 'd', 'o', 'c', 't', 'y', 'p', 'e'] := by decide +kernel
    have w : isAsciiWs '<' = false := by decide +kernel
    rw [e3]
    simp only [List.cons_append, List.dropWhile_cons, w, Bool.false_eq_true, if_false]
    rw [Bool.and_eq_false_iff]
    right
    have h1 : ∀ (r : Str), (('<' :: 'h' :: r).take ['<', '!', 'd', 'o', 'c', 't', 'y', 'p', 'e'].length) =
        '<' :: 'h' :: r.take 7 := fun r => rfl
    rw [h1]
    simp only [List.zip_cons_cons, List.all_cons]
    have h2 : (toLowerAscii 'h' == '!') = false := by decide +kernel
    rw [h2]
    simp
  · rw [hasHtmlStructure_iff]
    exact ⟨[], "<html".toList, rest, rfl, .inl (anyCase_self _)⟩

theorem page_not_doctype (ha hda ba : Attrs) (hs gap cs : List Html) :
    hasDoctypePrefix ((Html.pageOf ha hda hs gap ba cs).ser false) = false ∧
    hasHtmlStructure ((Html.pageOf ha hda hs gap ba cs).ser false) = true := by
  obtain ⟨rest, e⟩ := page_ser_start ha hda ba hs gap cs
  rw [e]
  exact html_not_doctype rest

/-- **C83**, partial: a page is read as it was written: the parsed document is sound, has the same tree, the same
doctype and the same HTML. Missing: pages that do not meet `Html.okPage`, for which it is false in general
(`C83_violated`). -/
theorem C83_page_partial {html5 : Str → Document} (hr : ReadsPages html5) (D : Document) {ha hda ba : Attrs}
    {hs gap cs : List Html} (ht : D.arena.tree D.root = Html.pageOf ha hda hs gap ba cs)
    (hok : Html.okPage ha hda hs gap ba cs = true) (hd : ∀ name, D.doctype = some name → okDoctype name = true) :
    (parseWith html5 D.toHtml).Sound ∧
    (parseWith html5 D.toHtml).arena.tree (parseWith html5 D.toHtml).root = D.arena.tree D.root ∧
    (parseWith html5 D.toHtml).doctype = D.doctype ∧ (parseWith html5 D.toHtml).toHtml = D.toHtml ∧
    (parseWith html5 D.toHtml).bodyForest = cs := by
  suffices h : (parseWith html5 D.toHtml).Sound ∧
      (parseWith html5 D.toHtml).arena.tree (parseWith html5 D.toHtml).root = D.arena.tree D.root ∧
      (parseWith html5 D.toHtml).doctype = D.doctype by
    refine ⟨h.1, h.2.1, h.2.2, ?_, ?_⟩
    · have e : ∀ E : Document, E.doctype = D.doctype → E.arena.tree E.root = D.arena.tree D.root → E.toHtml = D.toHtml := by
        intro E h1 h2
        rw [Document.toHtml, Document.toHtml, h1, serialize_eq, serialize_eq, h2]
      exact e _ h.2.2 h.2.1
    · simp only [Html.okPage, Bool.and_eq_true] at hok
      exact body_of_tree h.1.arena.wf hok.1.1.1.1.2 (h.2.1.trans ht)
  cases e : D.doctype with
  | some name =>
    have eH : D.toHtml = "<!DOCTYPE ".toList ++ name ++ ">".toList ++ (Html.pageOf ha hda hs gap ba cs).ser false := by
      rw [(C24_page D).2 name e, Document.toHtmlWithoutDoctype, serialize_eq, ht]
    obtain ⟨D', h1, h2, h3, h4⟩ := readPage_page hok (hd name e)
    rw [← eH] at h1
    have hp : parseWith html5 D.toHtml = html5 D.toHtml :=
      (C32_doctype_kept html5 D.toHtml).1 (by rw [eH]; exact startsWithDoctype_written _ _)
    obtain ⟨r1, r2, r3⟩ := hr _ _ h1
    rw [hp]
    exact ⟨r1, by rw [r2, h3, ht], by rw [r3, h4]⟩
  | none =>
    have eH : D.toHtml = (Html.pageOf ha hda hs gap ba cs).ser false := by
      rw [(C24_page D).1 e, Document.toHtmlWithoutDoctype, serialize_eq, ht]
    obtain ⟨n1, n2⟩ := page_not_doctype ha hda ba hs gap cs
    obtain ⟨D', h1, h2, h3, h4⟩ := readPage_page hok (name := "html".toList) (by decide +kernel)
    have eP : parseInput D.toHtml = "<!DOCTYPE ".toList ++ "html".toList ++ ">".toList ++
        (Html.pageOf ha hda hs gap ba cs).ser false := by
      rw [eH, parseInput, n1, n2]
      have : "<!DOCTYPE html>".toList = "<!DOCTYPE ".toList ++ "html".toList ++ ">".toList := by decide +kernel
      simp only [Bool.false_eq_true, if_false, if_true, this]
    rw [← eP] at h1
    obtain ⟨r1, r2, r3⟩ := hr _ _ h1
    have hp : parseWith html5 D.toHtml = { html5 (parseInput D.toHtml) with doctype := none } := by
      simp only [parseWith]
      rw [eH, n1]
      rfl
    rw [hp]
    exact ⟨⟨r1.arena, r1.root_lt⟩, by rw [ht, ← h3]; exact r2, rfl⟩

/-- The text with the line ends of Windows. -/
def crlf : Str → Str
  | [] => []
  | c :: cs => if c = '\n' then '\r' :: '\n' :: crlf cs else c :: crlf cs

theorem crlf_append (s t : Str) : crlf (s ++ t) = crlf s ++ crlf t := by
  induction s with
  | nil => rfl
  | cons c s ih => simp only [List.cons_append, crlf, ih]; split <;> simp

theorem newlines_crlf {t : Str} (h : '\r' ∉ t) : newlines (crlf t) = t := by
  induction t with
  | nil => rfl
  | cons c t ih =>
    rw [List.mem_cons, not_or] at h
    simp only [crlf]
    split
    · rename_i e; subst e; simp only [newlines, ih h.2]
    · rw [newlines.eq_4 _ _ (by rintro _ rfl; exact absurd rfl h.1) (by rintro rfl; exact absurd rfl h.1), ih h.2]

/-- **C83**, partial: line ends do not matter: the text of a page saved with a carriage return before every line feed
is read as the page. Missing: as above; pages without a doctype. -/
theorem C83_line_ends_partial {html5 : Str → Document} (hr : ReadsPages html5) (D : Document) {ha hda ba : Attrs}
    {hs gap cs : List Html} (ht : D.arena.tree D.root = Html.pageOf ha hda hs gap ba cs)
    (hok : Html.okPage ha hda hs gap ba cs = true) {name : Str} (hd : D.doctype = some name) (hn : okDoctype name = true) :
    (parseWith html5 (crlf D.toHtml)).Sound ∧
    (parseWith html5 (crlf D.toHtml)).arena.tree (parseWith html5 (crlf D.toHtml)).root = D.arena.tree D.root ∧
    (parseWith html5 (crlf D.toHtml)).doctype = some name := by
  have eH : D.toHtml = "<!DOCTYPE ".toList ++ name ++ ">".toList ++ (Html.pageOf ha hda hs gap ba cs).ser false := by
    rw [(C24_page D).2 name hd, Document.toHtmlWithoutDoctype, serialize_eq, ht]
  obtain ⟨D', h1, h2, h3, h4⟩ := readPage_page hok hn
  rw [← eH] at h1
  have hcr : '\r' ∉ D.toHtml := by
    rw [eH]
    have hr : run ⟨.data, .initial, [], false, []⟩
        ("<!DOCTYPE ".toList ++ name ++ ">".toList ++ (Html.pageOf ha hda hs gap ba cs).ser false) =
        some ⟨.data, .afterAfterBody, ["body".toList, "html".toList], false,
          [.doctype name] ++ pageEvs ha hda hs gap ba cs⟩ := by
      rw [run_append_of (run_doctype hn _ rfl rfl), run_page hok]
      rfl
    exact no_cr hr
  have h5 : readPage (crlf D.toHtml) = some D' := by
    rw [← h1]
    unfold readPage page
    rw [newlines_crlf hcr, newlines_of_no_cr hcr]
  have hp : parseWith html5 (crlf D.toHtml) = html5 (crlf D.toHtml) := by
    refine (C32_doctype_kept html5 _).1 ?_
    refine ⟨[], "<!DOCTYPE".toList, [' '] ++ crlf (name ++ ">".toList ++ (Html.pageOf ha hda hs gap ba cs).ser false), ?_,
      by simp, by decide +kernel⟩
    have e1 : crlf "<!DOCTYPE ".toList = "<!DOCTYPE".toList ++ [' '] := by decide +kernel
    rw [eH, List.append_assoc, List.append_assoc, crlf_append, e1]
    simp only [List.append_assoc, List.nil_append]
  obtain ⟨r1, r2, r3⟩ := hr _ _ h5
  rw [hp]
  exact ⟨r1, by rw [r2, h3, ht], by rw [r3, h4]⟩

/-- In a body, what follows a doctype is never read to its end. -/
theorem doctype_stuck {s s' : St} (hm : s.mode = .inBody)
    (hl : s.lex = .beforeDoctypeName ∨ ∃ acc, s.lex = .doctypeName acc) {t : Str} (e : run s t = some s') :
    s'.lex ≠ .data := by
  induction t generalizing s with
  | nil => cases e; rcases hl with hl | ⟨_, hl⟩ <;> rw [hl] <;> simp
  | cons c t ih =>
    rw [run_cons] at e
    obtain ⟨s1, e1, e2⟩ := Option.bind_eq_some_iff.1 e
    unfold step at e1
    split at e1
    · cases e1
    · rcases hl with hl | ⟨acc, hl⟩
      · simp only [hl] at e1
        split at e1
        · cases e1; exact ih hm (.inl hl) e2
        · split at e1 <;> cases e1
          exact ih (s := { s with lex := .doctypeName [toLowerAscii c] }) hm (.inr ⟨_, rfl⟩) e2
      · simp only [hl] at e1
        split at e1
        · simp [onDoctype, hm] at e1
        · split at e1 <;> cases e1
          exact ih (s := { s with lex := .doctypeName (acc ++ [toLowerAscii c]) }) hm (.inr ⟨_, rfl⟩) e2

/-- The HTML of a body that can be read does not begin with a doctype. -/
theorem no_doctype {s s' : St} (hm : s.mode = .inBody) (hl : s.lex = .data) {t : Str} (e : run s t = some s')
    (hl' : s'.lex = .data) : ¬ StartsWithDoctype t := by
  rintro ⟨ws, kw, rest, rfl, hws, hkw⟩
  rw [List.append_assoc] at e
  have skip : ∀ (ws : Str) (s : St), s.mode = .inBody → s.lex = .data →
      (∀ c ∈ ws, c ∈ [' ', '\t', '\n', Char.ofNat 12, '\r']) → run s (ws ++ (kw ++ rest)) = some s' →
      ∃ s1 : St, s1.mode = .inBody ∧ s1.lex = .data ∧ run s1 (kw ++ rest) = some s' := by
    intro ws
    induction ws with
    | nil => intro s h1 h2 _ e; exact ⟨s, h1, h2, e⟩
    | cons c ws ih =>
      intro s h1 h2 h3 e
      rw [List.cons_append, run_cons] at e
      obtain ⟨s1, e1, e2⟩ := Option.bind_eq_some_iff.1 e
      have hc := h3 c (by simp)
      unfold step at e1
      split at e1
      · cases e1
      · next hn =>
        simp only [h2] at e1
        have n1 : c ≠ '<' := by rintro rfl; revert hc; decide
        have n2 : c ≠ '&' := by rintro rfl; revert hc; decide
        rw [if_neg n1, if_neg n2] at e1
        simp only [onChar, h1] at e1
        split at e1 <;> cases e1
        exact ih _ (by rw [insertChar_mode, h1]) (by rw [insertChar_lex, h2]) (fun c hc => h3 c (by simp [hc])) e2
  obtain ⟨s1, m1, l1, e⟩ := skip ws s hm hl hws e
  rw [anyCase_iff (by decide)] at hkw
  have ek : "<!doctype".toList = ['<', '!', 'd', 'o', 'c', 't', 'y', 'p', 'e'] := by decide +kernel
  have ed : "doctype".toList = ['d', 'o', 'c', 't', 'y', 'p', 'e'] := by decide +kernel
  rw [ek] at hkw
  obtain ⟨a, kw, rfl, k1, hkw⟩ := List.map_eq_cons_iff.1 hkw
  obtain ⟨b, kw, rfl, k2, hkw⟩ := List.map_eq_cons_iff.1 hkw
  obtain ⟨d, kw, rfl, k3, hkw⟩ := List.map_eq_cons_iff.1 hkw
  obtain ⟨o, kw, rfl, k4, hkw⟩ := List.map_eq_cons_iff.1 hkw
  obtain ⟨c, kw, rfl, k5, hkw⟩ := List.map_eq_cons_iff.1 hkw
  obtain ⟨t, kw, rfl, k6, hkw⟩ := List.map_eq_cons_iff.1 hkw
  obtain ⟨y, kw, rfl, k7, hkw⟩ := List.map_eq_cons_iff.1 hkw
  obtain ⟨p, kw, rfl, k8, hkw⟩ := List.map_eq_cons_iff.1 hkw
  obtain ⟨x, kw, rfl, k9, hkw⟩ := List.map_eq_cons_iff.1 hkw
  rw [List.map_eq_nil_iff] at hkw
  subst hkw
  have ha : a = '<' := by
    rcases (toLowerAscii_eq (by decide)).1 k1 with h | h
    · exact h
    · exact absurd h (by simp [letterPairs])
  have hb : b = '!' := by
    rcases (toLowerAscii_eq (by decide)).1 k2 with h | h
    · exact h
    · exact absurd h (by simp [letterPairs])
  subst ha hb
  have ok : ∀ (c d : Char), toLowerAscii c = d → d ≠ '\r' → d ≠ Char.ofNat 0 → okChar c = true := by
    intro c d h h1 h2
    rw [okChar_iff]
    rintro (rfl | rfl)
    · exact h1 (by rw [← h]; decide)
    · exact h2 (by rw [← h]; decide)
  have go : ∀ (s : St) (acc acc' : Str) (c x : Char) (u : Str), toLowerAscii c = x → x ≠ '\r' → x ≠ Char.ofNat 0 →
      acc ++ [x] = acc' → acc' ≠ ['-', '-'] → acc' ≠ "doctype".toList → acc'.isPrefixOf "doctype".toList = true →
      run { s with lex := .markup acc } (c :: u) = run { s with lex := .markup acc' } u := by
    intro s acc acc' c x u h1 h2 h3 h4 h5 h6 h7
    exact run_cons_of (step_markup (ok c x h1 h2 h3) (by rw [h1]; exact h4) h5 h6 h7)
  simp only [List.cons_append, List.nil_append] at e
  rw [run_cons_of (s' := { s1 with lex := .tagOpen }) (by simp [step, l1]),
    run_cons_of (s' := { s1 with lex := .markup [] }) (by simp [step]),
    go s1 _ ['d'] _ _ _ k3 (by decide) (by decide) rfl (by decide) (by rw [ed]; decide) (by rw [ed]; decide),
    go s1 _ ['d', 'o'] _ _ _ k4 (by decide) (by decide) rfl (by decide) (by rw [ed]; decide) (by rw [ed]; decide),
    go s1 _ ['d', 'o', 'c'] _ _ _ k5 (by decide) (by decide) rfl (by decide) (by rw [ed]; decide) (by rw [ed]; decide),
    go s1 _ ['d', 'o', 'c', 't'] _ _ _ k6 (by decide) (by decide) rfl (by decide) (by rw [ed]; decide) (by rw [ed]; decide),
    go s1 _ ['d', 'o', 'c', 't', 'y'] _ _ _ k7 (by decide) (by decide) rfl (by decide) (by rw [ed]; decide)
      (by rw [ed]; decide),
    go s1 _ ['d', 'o', 'c', 't', 'y', 'p'] _ _ _ k8 (by decide) (by decide) rfl (by decide) (by rw [ed]; decide)
      (by rw [ed]; decide),
    run_cons_of (s' := { s1 with lex := .beforeDoctypeName })] at e
  · exact doctype_stuck (s := { s1 with lex := .beforeDoctypeName }) m1 (.inl rfl) e hl'
  · simp only [step]
    rw [if_neg (okChar_iff.1 (ok x _ k9 (by decide) (by decide))), k9, if_neg (by decide), if_pos (by rw [ed]; rfl)]

/-- **C83**, partial: the content of a body is read as it was written, when it is handed to `parse` without the page
around it. Missing: content that does not meet `Html.readableL`, and content with `<html` or `<body` somewhere (in a
comment, for instance). -/
theorem C83_content_partial {html5 : Str → Document} (hr : ReadsPages html5) (D : Document)
    (hok : Html.readableL ["body".toList, "html".toList] D.bodyForest = true) (ha : Html.apartB D.bodyForest = true)
    (hp : ¬ HasPageTag D.toBodyHtml) :
    (parseWith html5 D.toBodyHtml).Sound ∧ (parseWith html5 D.toBodyHtml).bodyForest = D.bodyForest ∧
    (parseWith html5 D.toBodyHtml).toBodyHtml = D.toBodyHtml := by
  have hd : ¬ StartsWithDoctype D.toBodyHtml := by
    rw [toBodyHtml_eq]
    exact no_doctype (s := ⟨.data, .inBody, _, false, []⟩) rfl rfl (run_trees _ hok (by simp)) rfl
  rw [← C32_doctype_detection, Bool.not_eq_true] at hd
  rw [← hasHtmlStructure_iff, Bool.not_eq_true] at hp
  obtain ⟨D', h1, h2, h3⟩ := readPage_content hok ha
  rw [← toBodyHtml_eq] at h1
  have eP : parseInput D.toBodyHtml = "<!DOCTYPE html><html><body>".toList ++ D.toBodyHtml ++ "</body></html>".toList := by
    rw [parseInput, hd, hp]; rfl
  rw [← eP] at h1
  obtain ⟨r1, r2, r3⟩ := hr _ _ h1
  have hq : parseWith html5 D.toBodyHtml = { html5 (parseInput D.toBodyHtml) with doctype := none } := by
    simp only [parseWith]
    rw [hd]
    rfl
  have hf : (parseWith html5 D.toBodyHtml).bodyForest = D.bodyForest := by
    rw [hq]
    exact body_of_tree (gap := []) r1.arena.wf rfl (r2.trans h3)
  refine ⟨by rw [hq]; exact ⟨r1.arena, r1.root_lt⟩, hf, ?_⟩
  rw [toBodyHtml_eq, hf, ← toBodyHtml_eq]

/-- **C83**, partial: the content of a body is read as it was written, when it is handed to `parse_body_fragment`: the
nodes are the children of the root. Missing: as above. -/
theorem C83_fragment_partial {frag : Str → Document} (hr : ReadsFragments frag) (D : Document)
    (hok : Html.readableL ["html".toList] D.bodyForest = true) (ha : Html.apartB D.bodyForest = true) :
    (frag D.toBodyHtml).Sound ∧
    (frag D.toBodyHtml).arena.tree (frag D.toBodyHtml).root = .element "html".toList [] D.bodyForest := by
  obtain ⟨D', h1, h2, h3⟩ := readFragment_forest hok ha
  rw [← toBodyHtml_eq] at h1
  obtain ⟨r1, r2⟩ := hr _ _ h1
  exact ⟨r1, r2.trans h3⟩

/-- **C83**, partial: the client's detour through `innerHTML` (used for names that the DOM refuses) creates the content
as it stands, in a browser whose parser follows the standard. Missing: as for C50. -/
theorem C83_detour_partial (dom : WebDom) (hr : ReadsFragments dom.fragment) {tag : Str} {attrs : Attrs}
    {children : List InsertContent} {e : Err} (hrej : dom.createWithAttrs tag attrs = .error e)
    (ho : (InsertContent.element tag attrs children).tree.ordinary = true)
    (hok : (InsertContent.element tag attrs children).tree.readable ["html".toList] = true)
    {A : Arena NodeData} (hA : A.WF) :
    ∃ A' m, dom.createInsertContent A (.element tag attrs children) = .ok (A', m) ∧ A'.WF ∧
      A.next ≤ m ∧ m < A'.next ∧ A'.parent m = none ∧
      A'.tree m = (InsertContent.element tag attrs children).tree ∧
      ∀ n, n < A.next → A'.data n = A.data n ∧ A'.parent n = A.parent n ∧ A'.children n = A.children n := by
  refine C50_fallback_inserts_partial dom hrej ho ?_ hA
  obtain ⟨D', h1, h2, h3⟩ := readFragment_forest (cs := [(InsertContent.element tag attrs children).tree])
    (by simp only [Html.readableL, hok, Bool.and_self]) rfl
  simp only [Html.serL, List.append_nil] at h1
  obtain ⟨r1, r2⟩ := hr _ _ h1
  refine ⟨r1.arena.wf, ?_⟩
  rw [h3, r1.arena.wf.tree_eq] at r2
  unfold Html.ofKind at r2
  split at r2 <;> simp only [Html.element.injEq, reduceCtorEq] at r2
  have hf := r2.2.2
  unfold Arena.forest at hf
  obtain ⟨n, rest, hc, hn, _⟩ := List.map_eq_cons_iff.1 hf
  exact ⟨n, rest, hc, hn⟩

/-- Nodes with the same tree are alike. -/
theorem alike_of_tree {A B : Arena NodeData} (hA : A.Sound) (hB : B.Sound) (nA : ∀ n, (A.data n).ns = .html)
    (nB : ∀ n, (B.data n).ns = .html) : ∀ (k : Nat) (n m : Nat), sizeOf (A.tree n) ≤ k → A.tree n = B.tree m →
      (A.data n).kind ≠ .document → Arena.Alike NodeData.Same A B n m := by
  intro k
  induction k with
  | zero =>
    intro n m hk _ _
    exfalso
    cases e : A.tree n <;> rw [e] at hk <;> simp at hk
  | succ k ih =>
    intro n m hk ht hn
    have ht' := ht
    rw [hA.wf.tree_eq, hB.wf.tree_eq] at ht'
    have leaf : (A.data n).kind = (B.data m).kind → A.children n = [] → B.children m = [] →
        Arena.Alike NodeData.Same A B n m := by
      intro h1 h2 h3
      refine .node ⟨h1, fun _ => by rw [nA, nB]⟩ (by rw [h2, h3]) ?_
      intro i c d hc
      rw [h2] at hc; simp at hc
    cases ea : (A.data n).kind with
    | document => exact absurd ea hn
    | text s =>
      cases eb : (B.data m).kind <;> rw [ea, eb] at ht' <;> simp only [Html.ofKind, reduceCtorEq, Html.text.injEq] at ht'
      subst ht'
      exact leaf (by rw [ea, eb]) (hA.leaf n (.inl ⟨_, ea⟩)) (hB.leaf m (.inl ⟨_, eb⟩))
    | comment s =>
      cases eb : (B.data m).kind <;> rw [ea, eb] at ht' <;> simp only [Html.ofKind, reduceCtorEq, Html.comment.injEq] at ht'
      subst ht'
      exact leaf (by rw [ea, eb]) (hA.leaf n (.inr ⟨_, ea⟩)) (hB.leaf m (.inr ⟨_, eb⟩))
    | element tag as =>
      cases eb : (B.data m).kind <;> rw [ea, eb] at ht' <;> simp only [Html.ofKind, reduceCtorEq, Html.element.injEq] at ht'
      obtain ⟨rfl, rfl, hf⟩ := ht'
      unfold Arena.forest at hf
      refine .node ⟨by rw [ea, eb], fun _ => by rw [nA, nB]⟩ ?_ ?_
      · have := congrArg List.length hf
        simpa using this
      · intro i c d hc hd
        have hcd : A.tree c = B.tree d := by
          have := congrArg (fun l => l[i]?) hf
          simp only [List.getElem?_map, hc, hd, Option.map_some, Option.some.injEq] at this
          exact this
        refine ih c d ?_ hcd (hA.nodoc c n ((hA.wf.mem_iff _ _).1 (List.mem_of_getElem? hc)))
        rw [hA.wf.tree_eq n, ea] at hk
        simp only [Html.ofKind, Html.element.sizeOf_spec] at hk
        have := List.sizeOf_lt_of_mem (as := A.forest n) (a := A.tree c)
          (List.mem_map.2 ⟨c, List.mem_of_getElem? hc, rfl⟩)
        omega

/-- The body of a page is an element with the attributes of the page's body. -/
theorem body_kind {D : Document} (hw : D.arena.WF) {ha hda : Attrs} {hs gap cs : List Html} (hg : Html.okGap gap = true)
    {ba : Attrs} (ht : D.arena.tree D.root = Html.pageOf ha hda hs gap ba cs) :
    ∃ b, D.body = some b ∧ D.arena.tree b = .element "body".toList ba cs := by
  obtain ⟨b, h1, h2⟩ := body_at hw hg ht
  exact ⟨b, h1, h2⟩

/-- **C83**, partial: a page whose body has no attributes needs no patches to become what is read from its own HTML.
Missing: as above, and elements outside of the namespace of HTML. -/
theorem C83_no_patches_partial {H : Type} [DecidableEq H] (hashNode : HKind → Option Str → List H → H)
    {html5 : Str → Document} (hr : ReadsPages html5) {D : Document} (hD : D.Sound) {ha hda : Attrs}
    {hs gap cs : List Html} (ht : D.arena.tree D.root = Html.pageOf ha hda hs gap [] cs)
    (hok : Html.okPage ha hda hs gap [] cs = true) (hd : ∀ name, D.doctype = some name → okDoctype name = true)
    (n1 : AllHtml D.arena) (n2 : AllHtml (parseWith html5 D.toHtml).arena) :
    diff hashNode D (parseWith html5 D.toHtml) = .ok [] ∧ diff hashNode (parseWith html5 D.toHtml) D = .ok [] := by
  obtain ⟨h1, h2, _⟩ := C83_page_partial hr D ht hok hd
  have hg : Html.okGap gap = true := by
    simp only [Html.okPage, Bool.and_eq_true] at hok
    exact hok.1.1.1.1.2
  obtain ⟨b, b1, b2⟩ := body_kind hD.arena.wf hg ht
  obtain ⟨c, c1, c2⟩ := body_kind h1.arena.wf hg (h2.trans ht)
  obtain ⟨_, a, hk⟩ := Document.body_spec b1
  obtain ⟨_, a', hk'⟩ := Document.body_spec c1
  have ha : a = [] := by
    rw [hD.arena.wf.tree_eq, hk] at b2
    simp only [Html.ofKind, Html.element.injEq] at b2
    exact b2.2.1
  have ha' : a' = [] := by
    rw [h1.arena.wf.tree_eq, hk'] at c2
    simp only [Html.ofKind, Html.element.injEq] at c2
    exact c2.2.1
  subst ha ha'
  exact ⟨C04_identical_documents_need_no_patches ⟨hD, h1, b1, c1⟩
      (alike_of_tree hD.arena h1.arena n1 n2 _ b c (Nat.le_refl _) (b2.trans c2.symm) (by rw [hk]; simp)) hk,
    C04_identical_documents_need_no_patches ⟨h1, hD, c1, b1⟩
      (alike_of_tree h1.arena hD.arena n2 n1 _ c b (Nat.le_refl _) (c2.trans b2.symm) (by rw [hk']; simp)) hk'⟩

/-! ### Concrete cases -/

/-- A body with many kinds of content. -/
def readBackBody : List Html :=
  [ex "h1" [("id", "t"), ("title", "a \"b\" & <c>")] [.text "x < y & z".toList],
   .text "\n ".toList,
   ex "ul" [] [ex "li" [] [.text "one".toList, ex "br" [] [], ex "b" [] [ex "i" [("@click", "go()")] []]],
     ex "li" [] [.comment " c-d ".toList]],
   ex "p" [] [ex "a" [("href", "?a=1&b=2")] [.text "&amp;".toList], ex "img" [("src", "i.png")] []],
   ex "script" [] [.text "if (a < b && c) { d(\"</x>\") }".toList],
   ex "textarea" [] [.text "<b>&".toList], ex "pre" [] [.text "a\nb".toList], ex "x-widget" [("data-n", "1")] [],
   ex "table" [("class", "t")] [.text "\n".toList, ex "caption" [] [.text "c".toList], ex "colgroup" [] [ex "col" [("span", "2")] []],
     ex "thead" [] [ex "tr" [] [ex "th" [] [.text "h".toList], .comment "x".toList]],
     ex "tbody" [] [.text " ".toList, ex "tr" [] [ex "td" [] [ex "p" [] [.text "1".toList], ex "table" [] []], ex "td" [] []]]],
   ex "form" [("action", "/go")] [ex "label" [] [.text "l".toList], ex "input" [("name", "n")] []],
   ex "ruby" [] [.text "a".toList, ex "rp" [] [.text "(".toList], ex "rt" [] [.text "b".toList]], ex "object" [] [ex "p" [] []]]

/-- A head. -/
def readBackHead : List Html :=
  [ex "meta" [("charset", "utf-8")] [], .text "\n".toList, ex "title" [] [.text "a < b".toList], .comment "c".toList,
   ex "style" [] [.text "a > b {}".toList]]

/-- The hypotheses of the theorems hold for this page, and `readsPages_reader` and
`readsFragments_reader` have the parsers. -/
example : Html.okPage (exAttrs [("lang", "en")]) [] readBackHead [.text "\n".toList] (exAttrs [("class", "k")])
      readBackBody = true ∧ okDoctype "html".toList = true ∧ Html.readableL ["body".toList, "html".toList] readBackBody = true ∧
    Html.apartB readBackBody = true ∧ Html.readableL ["html".toList] readBackBody = true := by
  decide +kernel

example (D : Document) (h : D.bodyForest = readBackBody) : ¬ HasPageTag D.toBodyHtml := by
  rw [← hasHtmlStructure_iff, toBodyHtml_eq, h]
  decide +kernel

/-- The other hypotheses of `C83_no_patches_partial` hold for what the reader makes of a page. -/
example {name : Str} (hn : okDoctype name = true) {hs cs : List Html} (hok : Html.okPage [] [] hs [] [] cs = true) :
    ∃ D : Document, D.Sound ∧ D.arena.tree D.root = Html.pageOf [] [] hs [] [] cs ∧ D.doctype = some name ∧
      AllHtml D.arena ∧ AllHtml (parseWith (fun text => (readPage text).getD Document.new) D.toHtml).arena := by
  obtain ⟨D, h1, h2, h3, h4⟩ := readPage_page hok hn
  refine ⟨D, h2, h3, h4, readPage_html h1, ?_⟩
  have eH : D.toHtml = "<!DOCTYPE ".toList ++ name ++ ">".toList ++ (Html.pageOf [] [] hs [] [] cs).ser false := by
    rw [(C24_page D).2 name h4, Document.toHtmlWithoutDoctype, serialize_eq, h3]
  rw [(C32_doctype_kept _ D.toHtml).1 (by rw [eH]; exact startsWithDoctype_written _ _), eH]
  simp only [h1, Option.getD_some]
  exact readPage_html h1

example : atContent.tree.readable ["html".toList] = true := by decide +kernel

/-- What the reader makes of a text. -/
def readBackHtml (text : String) : Option Str := (readPage text.toList).map fun D => D.toHtml

/-- What the reader makes of a fragment, written again. -/
def readBackFragment (text : Str) : Option Str := (readFragment text).map fun D => D.toHtml

/-- Line ends in a text that is read. -/
example : crlf "a\n\nb".toList = "a\r\n\r\nb".toList ∧
    readBackHtml "<!DOCTYPE html>\r\n<html><head></head><body><pre>a\r\n\r\nb</pre></body></html>" =
      some "<!DOCTYPE html><html><head></head><body><pre>a\n\nb</pre></body></html>".toList := by
  decide +kernel

example : readBackHtml "<!DOCTYPE html><html lang=\"en\"><head><title>a &lt; b</title></head>\n<body><p>x &amp; y<br></p></body></html>" =
    some "<!DOCTYPE html><html lang=\"en\"><head><title>a &lt; b</title></head>\n<body><p>x &amp; y<br></p></body></html>".toList := by
  decide +kernel

/-! ### Violations -/

/-- **C83** is violated by a `pre` whose text begins with a line feed, which is lost; a carriage return, which becomes a
line feed; a comment with `-->` in it, the rest of which becomes text and elements; text in an `iframe`, which the
writer escapes though it is read as it stands; a script with `</script>` in it, the rest of which becomes elements; and
two texts next to each other, which are one text when read. -/
theorem C83_violated :
    readBackFragment ((ex "pre" [] [.text "\na".toList]).ser false) = some "<html><pre>a</pre></html>".toList ∧
    readBackFragment ((ex "p" [] [.text "a\rb".toList]).ser false) = some "<html><p>a\nb</p></html>".toList ∧
    readBackFragment ((ex "p" [] [.comment "a--><b>c</b>".toList]).ser false) =
      some "<html><p><!--a--><b>c</b>--></p></html>".toList ∧
    ((readFragment ((ex "p" [] [.comment "a--><b>c</b>".toList]).ser false)).map fun D =>
      ((D.arena.children 2).map fun n => (D.arena.children n).length)) = some [3] ∧
    readBackFragment ((ex "iframe" [] [.text "a<b".toList]).ser false) =
      some "<html><iframe>a&amp;lt;b</iframe></html>".toList ∧
    ((readFragment ((ex "script" [] [.text "</script><b>c</b><script>".toList]).ser false)).map fun D =>
      (D.arena.children 2).length) = some 3 ∧
    ((readFragment (Html.serL false [.text "a".toList, .text "b".toList])).map fun D => (D.arena.children 2).length) =
      some 1 := by
  decide +kernel

end Hotmeal
