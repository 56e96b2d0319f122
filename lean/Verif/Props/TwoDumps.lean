import Verif.Props.Dumps

set_option autoImplicit false
set_option linter.unusedSectionVars false

/-!
# C88: the page and the library's reading of its content are printed alike
-/

namespace Hotmeal
namespace Reader

/-- Whatever fragment is read is in the namespace of HTML. -/
theorem readFragment_html {text : Str} {D : Document} (h : readFragment text = some D) : AllHtml D.arena := by
  unfold readFragment at h
  split at h
  · next evs S e e0 =>
    have hB : fragmentStartB = true := by decide +kernel
    unfold fragmentStartB at hB
    split at hB
    · cases hB
    · next S' hc =>
      simp only [Bool.and_eq_true, decide_eq_true_eq] at hB
      obtain ⟨⟨⟨⟨⟨b1, b2⟩, b3⟩, b4⟩, b5⟩, b6⟩ := hB
      obtain ⟨hsafe, hrun⟩ := Sink.checkAll_spec Sink.good_new hc
      have e0' := e0
      rw [hrun] at e0
      cases e0
      have hr : Ready (S, [2]) := ⟨Sink.good_runAll Sink.good_new hsafe hrun, by
        intro n hn
        simp only [List.mem_cons, List.not_mem_nil, or_false] at hn
        subst hn
        exact ⟨by show 2 < S.arena.next; omega, .inr ⟨_, _, b5⟩⟩⟩
      obtain ⟨σ, e1, h1⟩ := hr.build (fragment_unique e)
      have hS : AllHtml S.arena := by
        unfold Sink.runAll Sink.fragmentStart at e0'
        rw [List.foldlM_cons] at e0'
        obtain ⟨S1, h1, e0'⟩ := res_bind e0'
        rw [List.foldlM_cons] at e0'
        obtain ⟨S2, h2, e0'⟩ := res_bind e0'
        rw [List.foldlM_cons] at e0'
        obtain ⟨S3, h3, e0'⟩ := res_bind e0'
        cases e0'
        cases h1
        cases h2
        simp only [Sink.run, Sink.append] at h3
        obtain ⟨A, h4, h5⟩ := res_bind h3
        cases h5
        obtain ⟨d, _⟩ := Arena.append_data h4
        intro n
        change (A.data n).ns = _
        rw [d]
        simp only [Sink.createElement, Sink.new, Arena.newNode, Arena.upd_apply]
        split
        · rfl
        · split
          · rfl
          · split <;> rfl
      have := AllHtml.build hr hS (fragment_unique e) e1
      rw [e1] at h
      cases h
      exact this
  · cases h

end Reader

namespace Dump

open BodyHtml Mount Reader

variable {H : Type} [DecidableEq H] {hashNode : HKind → Option Str → List H → H}

/-- What is assumed of `str::to_uppercase`: ASCII letters go to their upper case, and other ASCII characters stay. -/
def UpperCase (upper : Str → Str) : Prop := ∀ s : Str, (∀ c ∈ s, c.toNat < 128) → upper s = s.map Char.toUpper

theorem toUpperAscii_toUpper (c : Char) : toUpperAscii c = c.toUpper := by
  unfold toUpperAscii Char.toUpper
  by_cases h : 'a' ≤ c ∧ c ≤ 'z'
  · have key : ∀ n, n < 123 → 97 ≤ n → Char.ofNat (n - 32) = (Char.ofNat n).toUpper := by decide
    have h1 : 97 ≤ c.toNat := UInt32.le_iff_toNat_le.1 h.1
    have h2 : c.toNat ≤ 122 := UInt32.le_iff_toNat_le.1 h.2
    rw [if_pos h, key _ (by omega) h1, Char.ofNat_toNat]
    rfl
  · rw [if_neg h, dif_neg]
    exact h

mutual
/-- A tree without comments, whose elements have ASCII names without line feeds. -/
def shown : Html → Bool
  | .element tag _ cs => tag.all (fun c => decide (c.toNat < 128 ∧ c ≠ '\n')) && shownL cs
  | .text _ => true
  | _ => false
/-- `shown` for a list. -/
def shownL : List Html → Bool
  | [] => true
  | c :: cs => shown c && shownL cs
end

mutual
/-- The lines of a tree, given the line of a node. -/
def linesT (f : NodeKind → Str) (k : Nat) : Html → Str
  | .element tag as cs => pad k ++ f (.element tag as) ++ linesTL f (k + 1) cs
  | .text s => pad k ++ f (.text s)
  | .comment s => pad k ++ f (.comment s)
  | .document => []
/-- `linesT` for a list. -/
def linesTL (f : NodeKind → Str) (k : Nat) : List Html → Str
  | [] => []
  | c :: cs => linesT f k c ++ linesTL f k cs
end

theorem linesTL_eq (f : NodeKind → Str) (k : Nat) : ∀ cs, linesTL f k cs = cs.flatMap (linesT f k)
  | [] => rfl
  | c :: cs => by simp only [linesTL, linesTL_eq f k cs, List.flatMap_cons]

theorem lines_eq {line : NodeData → Str} {f : NodeKind → Str} {A : Arena NodeData} (hA : A.Sound)
    (hl : ∀ n, line (A.data n) = f (A.data n).kind) (n : Nat) (hn : (A.data n).kind ≠ .document) (k : Nat) :
    lines line A n k = linesT f k (A.tree n) := by
  revert k
  refine hA.wf.induct_down (P := fun n => (A.data n).kind ≠ .document → ∀ k, lines line A n k = linesT f k (A.tree n)) ?_
    n hn
  intro n ih hn k
  have key : ((A.children n).map (fun c => lines line A c)).flatMap (fun c => c (k + 1)) =
      linesTL f (k + 1) (A.forest n) := by
    rw [linesTL_eq, Arena.forest, List.flatMap_map, List.flatMap_map]
    unfold List.flatMap
    exact congrArg List.flatten (List.map_congr_left fun c hc =>
      ih c hc (hA.nodoc c n ((hA.wf.mem_iff _ _).1 hc)) (k + 1))
  unfold lines at key ⊢
  rw [hA.wf.fold_eq, hA.wf.tree_eq]
  simp only [hl]
  simp only [hl] at key
  rw [key]
  cases hk : (A.data n).kind with
  | document => exact absurd hk hn
  | element tag as => rfl
  | text s => simp [Html.ofKind, linesT, Arena.forest, hA.leaf n (.inl ⟨s, hk⟩), linesTL]
  | comment s => simp [Html.ofKind, linesT, Arena.forest, hA.leaf n (.inr ⟨s, hk⟩), linesTL]

/-- The line of an HTML node in the browser. -/
def bLine (dbg : Str → Str) (d : NodeKind) : Str := browserLine dbg ⟨d, .html⟩
/-- The line of a node in the library. -/
def pLine (dbg upper : Str → Str) (d : NodeKind) : Str := parsedLine dbg upper ⟨d, .html⟩

theorem line_element {upper : Str → Str} (dbg : Str → Str) (hu : UpperCase upper) {tag : Str} (as as' : Attrs)
    (h : ∀ c ∈ tag, c.toNat < 128) : bLine dbg (.element tag as) = pLine dbg upper (.element tag as') := by
  simp only [bLine, pLine, browserLine, parsedLine, nodeName, if_true, hu tag h, List.map_congr_left fun c _ =>
    toUpperAscii_toUpper c]

mutual
theorem linesT_congr {dbg upper : Str → Str} (hu : UpperCase upper) : ∀ (t : Html) (k : Nat), shown t = true →
    linesT (bLine dbg) k t = linesT (pLine dbg upper) k t
  | .element tag as cs, k, h => by
    simp only [shown, Bool.and_eq_true, List.all_eq_true, decide_eq_true_eq] at h
    simp only [linesT, line_element dbg hu as as fun c hc => (h.1 c hc).1, linesTL_congr hu cs (k + 1) h.2]
  | .text s, k, _ => rfl
  | .comment s, k, h => by simp [shown] at h
  | .document, k, h => by simp [shown] at h
theorem linesTL_congr {dbg upper : Str → Str} (hu : UpperCase upper) : ∀ (cs : List Html) (k : Nat), shownL cs = true →
    linesTL (bLine dbg) k cs = linesTL (pLine dbg upper) k cs
  | [], _, _ => rfl
  | c :: cs, k, h => by
    simp only [shownL, Bool.and_eq_true] at h
    simp only [linesTL, linesT_congr hu c k h.1, linesTL_congr hu cs k h.2]
end

theorem browserLine_html (dbg : Str → Str) {A : Arena NodeData} (h : AllHtml A) (n : Nat) :
    browserLine dbg (A.data n) = bLine dbg (A.data n).kind := by
  have := h n
  unfold bLine browserLine
  rw [this]

/-- The element that `dump_rust_parsed` finds in a page without a head is the body. -/
theorem findBody_page {D : Document} (hD : D.Sound) {cs : List Html}
    (ht : D.arena.tree D.root = Html.pageOf [] [] [] [] [] cs) :
    ∃ b, findBody D = some b ∧ D.arena.tree b = .element "body".toList [] cs := by
  have hw := hD.arena.wf
  have hk : ∀ {n tag as ks}, D.arena.tree n = .element tag as ks →
      (D.arena.data n).kind = .element tag as ∧ (D.arena.children n).map D.arena.tree = ks := by
    intro n tag as ks e
    rw [hw.tree_eq] at e
    unfold Html.ofKind at e
    split at e <;> simp only [Html.element.injEq, reduceCtorEq] at e
    next hk => exact ⟨by rw [hk, e.1, e.2.1], e.2.2⟩
  obtain ⟨k0, c0⟩ := hk ht
  simp only [List.nil_append] at c0
  match hc : D.arena.children D.root with
  | [] => rw [hc] at c0; simp at c0
  | [_] => rw [hc] at c0; simp at c0
  | _ :: _ :: _ :: _ => rw [hc] at c0; simp at c0
  | [h, b] =>
    rw [hc] at c0
    simp only [List.map_cons, List.map_nil, List.cons.injEq, and_true] at c0
    obtain ⟨k1, c1⟩ := hk c0.1
    obtain ⟨k2, _⟩ := hk c0.2
    refine ⟨b, ?_, c0.2⟩
    have c1' : D.arena.children h = [] := List.map_eq_nil_iff.1 c1
    unfold findBody
    rw [hw.descendants_eq, hc, List.map_cons, List.map_cons, List.map_nil, hw.descendants_eq h, c1',
      hw.descendants_eq b]
    simp only [List.map_nil, List.flatten_cons, List.flatten_nil, List.cons_append, List.nil_append,
      List.find?_cons, k0, k1, k2]
    have e1 : decide ("html".toList.map toLowerAscii = "body".toList) = false := by decide +kernel
    have e2 : decide ("head".toList.map toLowerAscii = "body".toList) = false := by decide +kernel
    have e3 : decide ("body".toList.map toLowerAscii = "body".toList) = true := by decide +kernel
    simp only [e1, e2, e3]

theorem wrap_tree {html5 : Str → Document} (h : ReadsPages html5) {cs : List Html}
    (hr : Html.readableL ["body".toList, "html".toList] cs = true) (ha : Html.apartB cs = true) :
    (parseWith html5 (wrapBody (Html.serL false cs))).Sound ∧
    (parseWith html5 (wrapBody (Html.serL false cs))).arena.tree (parseWith html5 (wrapBody (Html.serL false cs))).root =
      Html.pageOf [] [] [] [] [] cs := by
  obtain ⟨D', e1, e2, e3⟩ := readPage_content (cs := cs) hr ha
  have eW : wrapBody (Html.serL false cs) =
      "<html".toList ++ ("><body>".toList ++ Html.serL false cs ++ "</body></html>".toList) := by
    have : "<html><body>".toList = "<html".toList ++ "><body>".toList := by decide +kernel
    unfold wrapBody
    rw [this]
    simp only [List.append_assoc]
  obtain ⟨n1, n2⟩ := html_not_doctype ("><body>".toList ++ Html.serL false cs ++ "</body></html>".toList)
  rw [← eW] at n1 n2
  have eP : parseInput (wrapBody (Html.serL false cs)) =
      "<!DOCTYPE html><html><body>".toList ++ Html.serL false cs ++ "</body></html>".toList := by
    have : "<!DOCTYPE html><html><body>".toList = "<!DOCTYPE html>".toList ++ "<html><body>".toList := by decide +kernel
    rw [parseInput, n1, n2, this, List.append_assoc, List.append_assoc]
    show "<!DOCTYPE html>".toList ++ wrapBody (Html.serL false cs) = _
    unfold wrapBody
    simp only [List.append_assoc]
  rw [← eP] at e1
  obtain ⟨r1, r2, _⟩ := h _ _ e1
  have hq : parseWith html5 (wrapBody (Html.serL false cs)) =
      { html5 (parseInput (wrapBody (Html.serL false cs))) with doctype := none } := by
    simp only [parseWith]
    rw [n1]
    rfl
  rw [hq]
  exact ⟨⟨r1.arena, r1.root_lt⟩, r2.trans e3⟩

/-- **C88**, partial: after the content of the body was set from a text, the page is printed exactly as the library's
reading of that text is. Missing: contents with comments, with names that are not ASCII, or outside of the namespace of
HTML, for which it is false (`C88_violated`). For pages that were patched, see `C88_after_patches_partial`. -/
theorem C88_dumps_agree_partial {dbg upper : Str → Str} (hu : UpperCase upper) {html5 frag : Str → Document}
    (hp : ReadsPages html5) (hf : ReadsFragments frag) {cs : List Html}
    (hh : AllHtml (frag (Html.serL false cs)).arena) {E : Arena NodeData} (hE : E.Sound) (hEh : AllHtml E) {doc b : Nat}
    {as : Attrs} (hb : documentBody E doc = some b) (hk : (E.data b).kind = .element "body".toList as)
    (hr : Html.readableL ["html".toList] cs = true) (hr' : Html.readableL ["body".toList, "html".toList] cs = true)
    (ha : Html.apartB cs = true) (hs : shownL cs = true) :
    ∃ E' s, setBodyInnerHtml frag E doc (Html.serL false cs) = .ok E' ∧ dumpBrowserDom dbg E' doc = .ok s ∧
      dumpRustParsed dbg upper (parseWith html5) (Html.serL false cs) = some s := by
  obtain ⟨D', h1, h2, h3⟩ := readFragment_forest hr ha
  obtain ⟨r1, r2⟩ := hf _ _ h1
  have hfo : (frag (Html.serL false cs)).arena.forest (frag (Html.serL false cs)).root = cs := by
    rw [h3, r1.arena.wf.tree_eq] at r2
    unfold Html.ofKind at r2
    split at r2 <;> simp only [Html.element.injEq, reduceCtorEq] at r2
    exact r2.2.2
  have hlt := documentBody_lt hE.wf hb
  obtain ⟨E', e, hfill⟩ := setInnerHtml_fills (P := fun d => d.ns = .html) (frag := frag) ⟨hE, hEh⟩ hlt hk
    (html := Html.serL false cs) ⟨r1.arena, hh⟩
  have hpl := hfill.samePlace hE.wf hlt
  have hb' := documentBody_same hpl hE.wf hb
  have hk' : (E'.data b).kind = .element "body".toList as := by rw [hfill.data b hlt]; exact hk
  obtain ⟨w1, w2⟩ := wrap_tree hp hr' ha
  obtain ⟨c, f1, f2⟩ := findBody_page w1 w2
  have hkc : ((parseWith html5 (wrapBody (Html.serL false cs))).arena.data c).kind ≠ .document := by
    intro hkd
    rw [w1.arena.wf.tree_eq, hkd] at f2
    cases f2
  refine ⟨E', lines (browserLine dbg) E' b 0, ?_, ?_, ?_⟩
  · unfold setBodyInnerHtml
    rw [resolve_body hb]
    exact e
  · unfold dumpBrowserDom
    rw [resolve_body hb']
    rfl
  · unfold dumpRustParsed
    simp only [f1, Option.map_some, Option.some.injEq]
    rw [lines_eq (f := pLine dbg upper) w1.arena (fun n => rfl) c hkc,
      lines_eq (f := bLine dbg) hfill.tidy.sound (browserLine_html dbg hfill.tidy.all) b (by rw [hk']; simp), f2,
      hfill.tidy.sound.wf.tree_eq, hk', hfill.forest, hfo]
    have hb : ∀ c ∈ "body".toList, c.toNat < 128 := by decide
    simp only [Html.ofKind, linesT, line_element dbg hu as [] hb, linesTL_congr hu cs (0 + 1) hs]

/-! ### After patches -/

/-- A text without its lines for which `p` holds. The first argument is the beginning of the line that is being read. -/
def dropLines (p : Str → Bool) : Str → Str → Str
  | acc, [] => if p acc then [] else acc
  | acc, c :: cs =>
    if c = '\n' then (if p acc then [] else acc ++ ['\n']) ++ dropLines p [] cs else dropLines p (acc ++ [c]) cs

theorem dropLines_line (p : Str → Bool) (r : Str) : ∀ (l acc : Str), '\n' ∉ l →
    dropLines p acc (l ++ '\n' :: r) = (if p (acc ++ l) then [] else acc ++ l ++ ['\n']) ++ dropLines p [] r
  | [], acc, _ => by simp [dropLines]
  | c :: l, acc, h => by
    have hc : ¬ c = '\n' := fun e => h (by simp [e])
    rw [List.cons_append, dropLines, if_neg hc, dropLines_line p r l (acc ++ [c]) (fun m => h (by simp [m]))]
    simp

/-- A line that is printed for an empty text. -/
def emptyLine (dbg : Str → Str) (line : Str) : Bool :=
  decide (line.dropWhile (· == ' ') = "Text(".toList ++ dbg [] ++ ")".toList)

theorem dropWhile_pad (k : Nat) {c : Char} (hc : c ≠ ' ') (l : Str) :
    (pad k ++ c :: l).dropWhile (· == ' ') = c :: l := by
  unfold pad
  generalize 2 * k = j
  induction j with
  | zero => simp [hc]
  | succ j ih => simpa [List.replicate_succ] using ih

theorem pad_line (k : Nat) : '\n' ∉ pad k := by
  intro h
  have := List.eq_of_mem_replicate h
  exact absurd this (by decide)

theorem visible_eq_nil {s : Str} : visible s = [] ↔ s = [] := by
  refine ⟨fun h => ?_, fun h => by rw [h]; rfl⟩
  cases s with
  | nil => rfl
  | cons c s =>
    unfold visible at h
    rw [List.flatMap_cons] at h
    have h1 := (List.append_eq_nil_iff.1 h).1
    split at h1
    · exact absurd h1 (by decide)
    · split at h1
      · exact absurd h1 (by decide)
      · cases h1

theorem toUpper_line {c : Char} (h : c.toUpper = '\n') : c = '\n' := by
  unfold Char.toUpper at h
  by_cases hr : 'a' ≤ c ∧ c ≤ 'z'
  · have key : ∀ n, n < 123 → 97 ≤ n → (Char.ofNat n).toUpper ≠ '\n' := by decide
    have h1 : 97 ≤ c.toNat := UInt32.le_iff_toNat_le.1 hr.1
    have h2 : c.toNat ≤ 122 := UInt32.le_iff_toNat_le.1 hr.2
    have := key _ (by omega) h1
    rw [Char.ofNat_toNat] at this
    exact absurd h this
  · rw [dif_neg] at h
    · exact h
    · exact hr

theorem drop_element {dbg : Str → Str} (k : Nat) {tag : Str} (as : Attrs) (h : '\n' ∉ tag) (r : Str) :
    dropLines (emptyLine dbg) [] (pad k ++ bLine dbg (.element tag as) ++ r) =
      pad k ++ bLine dbg (.element tag as) ++ dropLines (emptyLine dbg) [] r := by
  have e : ∀ r : Str, pad k ++ bLine dbg (.element tag as) ++ r =
      (pad k ++ 'E' :: ("lement(".toList ++ (tag.map Char.toUpper ++ ")".toList))) ++ '\n' :: r := by
    intro r
    have e1 : "Element(".toList = 'E' :: "lement(".toList := by decide +kernel
    have e2 : ")\n".toList = ")".toList ++ ['\n'] := by decide +kernel
    simp only [bLine, browserLine, nodeName, if_true, List.map_congr_left fun c _ => toUpperAscii_toUpper c, e1, e2]
    simp only [List.append_assoc, List.cons_append, List.nil_append]
  have hl : '\n' ∉ pad k ++ 'E' :: ("lement(".toList ++ (tag.map Char.toUpper ++ ")".toList)) := by
    have d1 : '\n' ∉ "lement(".toList := by decide +kernel
    have d2 : '\n' ∉ ")".toList := by decide +kernel
    have d3 : '\n' ∉ tag.map Char.toUpper := by
      intro m
      obtain ⟨c, hc, ec⟩ := List.mem_map.1 m
      exact h (toUpper_line ec ▸ hc)
    simp only [List.mem_append, List.mem_cons, not_or]
    exact ⟨pad_line k, by decide, d1, d3, d2⟩
  have hn : emptyLine dbg (pad k ++ 'E' :: ("lement(".toList ++ (tag.map Char.toUpper ++ ")".toList))) = false := by
    have : "Text(".toList = 'T' :: "ext(".toList := by decide +kernel
    unfold emptyLine
    rw [dropWhile_pad k (by decide), this]
    simp
  rw [e r, dropLines_line _ _ _ _ hl, List.nil_append, hn, e]
  simp

theorem drop_text {dbg : Str → Str} (hd : DebugStr dbg) (k : Nat) (s r : Str) :
    dropLines (emptyLine dbg) [] (pad k ++ bLine dbg (.text s) ++ r) =
      (if s = [] then [] else pad k ++ bLine dbg (.text s)) ++ dropLines (emptyLine dbg) [] r := by
  have et : "Text(".toList = 'T' :: "ext(".toList := by decide +kernel
  have e : ∀ r : Str, pad k ++ bLine dbg (.text s) ++ r =
      (pad k ++ 'T' :: ("ext(".toList ++ (dbg (visible s) ++ ")".toList))) ++ '\n' :: r := by
    intro r
    have e2 : ")\n".toList = ")".toList ++ ['\n'] := by decide +kernel
    simp only [bLine, browserLine, et, e2]
    simp only [List.append_assoc, List.cons_append, List.nil_append]
  have hl : '\n' ∉ pad k ++ 'T' :: ("ext(".toList ++ (dbg (visible s) ++ ")".toList)) := by
    have d1 : '\n' ∉ "ext(".toList := by decide +kernel
    have d2 : '\n' ∉ ")".toList := by decide +kernel
    simp only [List.mem_append, List.mem_cons, not_or]
    exact ⟨pad_line k, by decide, d1, hd.line _, d2⟩
  have hn : emptyLine dbg (pad k ++ 'T' :: ("ext(".toList ++ (dbg (visible s) ++ ")".toList))) = decide (s = []) := by
    unfold emptyLine
    rw [dropWhile_pad k (by decide), et]
    refine decide_eq_decide.2 ⟨fun h => ?_, fun h => ?_⟩
    · simp only [List.cons_append, List.append_assoc, List.cons.injEq, true_and] at h
      exact visible_eq_nil.1 (hd.back _ _ _ _ (List.append_cancel_left h)).1
    · subst h
      simp [visible]
  rw [e r, dropLines_line _ _ _ _ hl, List.nil_append, hn]
  by_cases h : s = []
  · simp [h]
  · have := e []
    simp only [List.append_nil] at this
    simp only [h, decide_false, if_false, this, Bool.false_eq_true]

mutual
/-- Without the lines of empty texts, a tree is printed as it is without its empty texts. -/
theorem drop_linesT {dbg : Str → Str} (hd : DebugStr dbg) : ∀ (t : Html) (k : Nat) (r : Str), shown t = true →
    dropLines (emptyLine dbg) [] (linesT (bLine dbg) k t ++ r) =
      (if t.isEmptyText then [] else linesT (bLine dbg) k t.prune) ++ dropLines (emptyLine dbg) [] r
  | .element tag as cs, k, r, h => by
    simp only [shown, Bool.and_eq_true, List.all_eq_true, decide_eq_true_eq] at h
    have hn : '\n' ∉ tag := fun m => (h.1 _ m).2 rfl
    simp only [linesT, Html.isEmptyText, Html.prune, Bool.false_eq_true, if_false]
    rw [List.append_assoc, drop_element k as hn, drop_linesTL hd cs (k + 1) r h.2]
    simp only [List.append_assoc]
  | .text s, k, r, _ => by
    simp only [linesT, Html.prune]
    rw [drop_text hd]
    cases s <;> simp [Html.isEmptyText]
  | .comment s, k, _, h => by simp [shown] at h
  | .document, k, _, h => by simp [shown] at h
theorem drop_linesTL {dbg : Str → Str} (hd : DebugStr dbg) : ∀ (cs : List Html) (k : Nat) (r : Str), shownL cs = true →
    dropLines (emptyLine dbg) [] (linesTL (bLine dbg) k cs ++ r) =
      linesTL (bLine dbg) k (Html.pruneL cs) ++ dropLines (emptyLine dbg) [] r
  | [], _, r, _ => rfl
  | c :: cs, k, r, h => by
    simp only [shownL, Bool.and_eq_true] at h
    simp only [linesTL, Html.pruneL]
    rw [List.append_assoc, drop_linesT hd c k _ h.1, drop_linesTL hd cs k r h.2]
    split
    · simp
    · simp only [linesTL, List.append_assoc]
end

mutual
/-- Attributes are not printed. -/
theorem linesT_unq (dbg : Str → Str) : ∀ (t : Html) (k : Nat), linesT (bLine dbg) k t.unq = linesT (bLine dbg) k t
  | .element tag as cs, k => by
    simp only [Html.unq, linesT, linesTL_unq dbg cs (k + 1)]
    rfl
  | .text s, k => rfl
  | .comment s, k => rfl
  | .document, k => rfl
theorem linesTL_unq (dbg : Str → Str) : ∀ (cs : List Html) (k : Nat),
    linesTL (bLine dbg) k (Html.unqL cs) = linesTL (bLine dbg) k cs
  | [], _ => rfl
  | c :: cs, k => by simp only [Html.unqL, linesTL, linesT_unq dbg c k, linesTL_unq dbg cs k]
end

mutual
theorem shown_prune_unq : ∀ t : Html, shown t.unq.prune = shown t
  | .element tag as cs => by simp only [Html.unq, Html.prune, shown, shownL_prune_unq cs]
  | .text _ => rfl
  | .comment _ => rfl
  | .document => rfl
theorem shownL_prune_unq : ∀ cs : List Html, shownL (Html.pruneL (Html.unqL cs)) = shownL cs
  | [] => rfl
  | c :: cs => by
    simp only [Html.unqL, Html.pruneL, shownL]
    split
    · next h =>
      have : shown c = true := by cases c <;> simp_all [Html.unq, Html.isEmptyText, shown]
      rw [this, shownL_prune_unq cs, Bool.true_and]
    · simp only [shownL, shown_prune_unq c, shownL_prune_unq cs]
end

theorem isEmptyText_text (s : Str) : (Html.text s).isEmptyText = s.isEmpty := by cases s <;> rfl

mutual
/-- What can be read has no empty texts. -/
theorem prune_of_readable : ∀ (t : Html) (st : List Str), t.readable st = true → t.prune = t ∧ t.isEmptyText = false
  | .element tag as cs, st, h => by
    simp only [Html.readable, Bool.and_eq_true] at h
    refine ⟨?_, rfl⟩
    have : Html.pruneL cs = cs := by
      have h := h.2
      split at h
      · rw [List.isEmpty_iff.1 h]; rfl
      · split at h
        · unfold Html.okRawKids at h
          split at h
          · rfl
          · simp only [Bool.and_eq_true, Bool.not_eq_true'] at h
            rw [Html.pruneL, isEmptyText_text, h.1.1]
            rfl
          · cases h
        · simp only [Bool.and_eq_true] at h
          exact pruneL_of_readable cs _ h.2
    simp only [Html.prune, this]
  | .text s, st, h => by
    simp only [Html.readable, Bool.and_eq_true, Bool.not_eq_true'] at h
    exact ⟨rfl, (isEmptyText_text s).trans h.1.1⟩
  | .comment _, _, _ => ⟨rfl, rfl⟩
  | .document, _, _ => ⟨rfl, rfl⟩
theorem pruneL_of_readable : ∀ (cs : List Html) (st : List Str), Html.readableL st cs = true → Html.pruneL cs = cs
  | [], _, _ => rfl
  | c :: cs, st, h => by
    simp only [Html.readableL, Bool.and_eq_true] at h
    obtain ⟨h1, h2⟩ := prune_of_readable c st h.1
    simp only [Html.pruneL, h2, Bool.false_eq_true, if_false, h1, pruneL_of_readable cs st h.2]
end

/-- As `lines_eq`, for a part of a page without comments. -/
theorem lines_below {line : NodeData → Str} {f : NodeKind → Str} {A : Arena NodeData} (hw : A.WF) {b : Nat}
    (hleaf : ∀ n s, A.Anc b n → (A.data n).kind = .text s → A.children n = [])
    (hl : ∀ n, line (A.data n) = f (A.data n).kind) (n : Nat) (ha : A.Anc b n) (hs : shown (A.tree n) = true) (k : Nat) :
    lines line A n k = linesT f k (A.tree n) := by
  revert k hs ha
  refine hw.induct_down (P := fun n => A.Anc b n → shown (A.tree n) = true → ∀ k,
    lines line A n k = linesT f k (A.tree n)) ?_ n
  intro n ih ha hs k
  unfold lines
  rw [hw.fold_eq, hw.tree_eq, hl]
  rw [hw.tree_eq] at hs
  cases hk : (A.data n).kind with
  | document => rw [hk] at hs; simp [Html.ofKind, shown] at hs
  | comment s => rw [hk] at hs; simp [Html.ofKind, shown] at hs
  | text s => simp [Html.ofKind, linesT, hleaf n s ha hk]
  | element tag as =>
    rw [hk] at hs
    simp only [Html.ofKind, shown, Bool.and_eq_true] at hs
    have hs2 := hs.2
    have hall : ∀ c ∈ A.children n, shown (A.tree c) = true := by
      have key : ∀ l : List Nat, shownL (l.map A.tree) = true → ∀ c ∈ l, shown (A.tree c) = true := by
        intro l
        induction l with
        | nil => intro _ c hc; cases hc
        | cons x l ih =>
          intro h c hc
          simp only [List.map_cons, shownL, Bool.and_eq_true] at h
          rcases List.mem_cons.1 hc with e | e
          · rw [e]; exact h.1
          · exact ih h.2 c e
      exact key _ hs2
    simp only [Html.ofKind, linesT]
    rw [linesTL_eq, List.flatMap_map, Arena.forest, List.flatMap_map]
    congr 1
    unfold List.flatMap
    exact congrArg List.flatten (List.map_congr_left fun c hc =>
      ih c hc (.step ((hw.mem_iff _ _).1 hc) ha) (hall c hc) (k + 1))

/-- **C88**, partial: a page is taken from version to version by patches. In the end it is printed as the library's
reading of the last version is, except for lines of empty texts.
Missing: as in C85, and contents with comments, with names that are not ASCII, or outside of the namespace of HTML. -/
theorem C88_after_patches_partial {dbg upper : Str → Str} (hd : DebugStr dbg) (hu : UpperCase upper) (dom : WebDom)
    {html5 frag : Str → Document} (hs : ParsesPages html5) (hf : ParsesFragments frag)
    {E : Arena NodeData} {doc b : Nat} (hE : Stage E doc b) (hEh : AllHtml E) {as : Attrs}
    (hk : (E.data b).kind = .element "body".toList as) {isle : Str → Bool}
    {rank : Str → Nat} {m : Nat} (hm : rank "body".toList < m) {c : List Html} {cs : List (List Html)}
    (hh : AllHtml (frag (Html.serL false c)).arena)
    (hok : ∀ d ∈ c :: cs, ok dom isle d = true ∧ Html.layeredL rank m (rank "body".toList) d = true)
    (hc : ∀ d ∈ c :: cs, ∀ e ∈ c :: cs, ∀ ob nb, (read html5 d).body = some ob → (read html5 e).body = some nb →
      NoCollision hashNode (buildTree (read html5 d) ob) (diffable (read html5 e)) nb)
    (hsz : ∀ d ∈ c :: cs, (Html.serL false d).length < 2 ^ 29)
    (hsh : shownL ((c :: cs).getLast (by simp)) = true) :
    ∃ E1 E2 s, setBodyInnerHtml frag E doc (Html.serL false c) = .ok E1 ∧
      updates dom hashNode (parseWith html5) doc E1 (Html.serL false c) (cs.map (Html.serL false)) = some E2 ∧
      dumpBrowserDom dbg E2 doc = .ok s ∧
      dumpRustParsed dbg upper (parseWith html5) (Html.serL false ((c :: cs).getLast (by simp))) =
        some (dropLines (emptyLine dbg) [] s) := by
  obtain ⟨E1, E2, e1, _, e3, _, e5, _, _, e6, w, lf, nd, al⟩ :=
    C85_versions_partial (hashNode := hashNode) dom hs hf hE hm hok hc hsz
  have hA := al hEh hh
  generalize hlast : (c :: cs).getLast (by simp) = last at *
  have hlm : last ∈ c :: cs := hlast ▸ List.getLast_mem (by simp)
  have hr : Html.readableL ["body".toList, "html".toList] last = true := by
    have h1 := (ok_parts (hok last hlm).1).1
    simp only [PageTree.ok, Html.okPage, Bool.and_eq_true] at h1
    exact h1.1.1.1.2.1.2
  have hsf : shownL (E2.forest b) = true := by
    rw [← shownL_prune_unq, nd, shownL_prune_unq]
    exact hsh
  obtain ⟨t2, as2, hk2⟩ := documentBody_kind e5
  have ht2 : t2 = "body".toList := by
    unfold tagOf at e6
    rw [hk, hk2] at e6
    exact Option.some.inj e6
  subst ht2
  obtain ⟨w1, w2⟩ := wrap_tree hs.reads hr (ok_parts (hok last hlm).1).2.2.2.2
  obtain ⟨x, f1, f2⟩ := findBody_page w1 w2
  have hkx : ((parseWith html5 (wrapBody (Html.serL false last))).arena.data x).kind ≠ .document := by
    intro hkd
    rw [w1.arena.wf.tree_eq, hkd] at f2
    cases f2
  have hbody : ∀ c ∈ "body".toList, c.toNat < 128 := by decide
  have hbl : '\n' ∉ "body".toList := by decide
  have htree : shown (E2.tree b) = true := by
    rw [w.tree_eq, hk2]
    simp only [Html.ofKind, shown, Bool.and_eq_true]
    exact ⟨by decide, hsf⟩
  refine ⟨E1, E2, lines (browserLine dbg) E2 b 0, e1, e3, ?_, ?_⟩
  · unfold dumpBrowserDom
    rw [resolve_body e5]
    rfl
  · unfold dumpRustParsed
    simp only [f1, Option.map_some, Option.some.injEq]
    rw [lines_eq (f := pLine dbg upper) w1.arena (fun n => rfl) x hkx,
      lines_below (f := bLine dbg) w lf (browserLine_html dbg hA) b .refl htree, f2, w.tree_eq, hk2]
    simp only [Html.ofKind, linesT]
    rw [drop_element 0 as2 hbl]
    have h1 := drop_linesTL hd (E2.forest b) (0 + 1) [] hsf
    rw [List.append_nil] at h1
    have h2 : linesTL (bLine dbg) (0 + 1) (Html.pruneL (E2.forest b)) = linesTL (bLine dbg) (0 + 1) last := by
      rw [← linesTL_unq, Html.unqL_pruneL, nd, ← Html.unqL_pruneL, linesTL_unq, pruneL_of_readable last _ hr]
    show _ = _ ++ dropLines (emptyLine dbg) [] (linesTL (bLine dbg) (0 + 1) (E2.forest b))
    rw [h1, h2, ← linesTL_congr hu last (0 + 1) hsh, ← line_element dbg hu as2 [] hbody]
    have : dropLines (emptyLine dbg) [] [] = [] := by
      unfold dropLines
      split <;> rfl
    rw [this, List.append_nil]

/-! ### Concrete cases -/

/-- A way of writing in upper case that only knows the ASCII letters and `ñ`. -/
def upperSome (s : Str) : Str := s.map fun c => if c = 'ñ' then 'Ñ' else c.toUpper

theorem upperCase_some : UpperCase upperSome := by
  intro s hs
  refine List.map_congr_left fun c hc => if_neg ?_
  rintro rfl
  exact absurd (hs _ hc) (by decide)

/-- A content without comments. -/
def printed : List Html := [ex "p" [("id", "a")] [.text "a b\n".toList, ex "b" [] [.text "c".toList]], ex "my-map" [] []]

theorem shopPage_html : AllHtml shopPage := by
  have h : (readPage shopOld.text).isSome = true := by decide +kernel
  obtain ⟨D, hD⟩ := Option.isSome_iff_exists.1 h
  have := parsesPages_reader.html _ _ hD
  exact this

/-- The hypotheses of `C88_dumps_agree_partial` hold for this content in this page. -/
example : ∃ E' s, setBodyInnerHtml readBodyHtml shopPage 0 (Html.serL false printed) = .ok E' ∧
    dumpBrowserDom quote E' 0 = .ok s ∧
    dumpRustParsed quote upperSome (parseWith readHtml5) (Html.serL false printed) = some s := by
  have hf : (readFragment (Html.serL false printed)).isSome = true := by decide +kernel
  obtain ⟨D, hD⟩ := Option.isSome_iff_exists.1 hf
  have hh : AllHtml (readBodyHtml (Html.serL false printed)).arena := by
    unfold readBodyHtml
    rw [hD]
    exact readFragment_html hD
  obtain ⟨tag, as, hk⟩ := documentBody_kind shopPage_stage.body
  have ht : tag = "body".toList := by
    have : tagOf shopPage 6 = some "body".toList := by decide +kernel
    unfold tagOf at this
    rw [hk] at this
    exact Option.some.inj this
  subst ht
  exact C88_dumps_agree_partial upperCase_some parsesPages_reader.reads readsFragments_reader hh shopPage_stage.sound
    shopPage_html shopPage_stage.body hk (by decide +kernel) (by decide +kernel) (by decide +kernel) (by decide +kernel)

example : dumpRustParsed quote upperSome (parseWith readHtml5) (Html.serL false printed) = some
    ("Element(BODY)\n  Element(P)\n    Text(\"a·b\\\\n\")\n    Element(B)\n      Text(\"c\")\n  Element(MY-MAP)\n").toList := by
  decide +kernel

/-- The hypotheses of `C88_after_patches_partial` hold for a page and two contents. -/
example : ∃ E1 E2 s, setBodyInnerHtml readBodyHtml shopPage 0 (Html.serL false shopOld.body) = .ok E1 ∧
    updates WebDom.lenient Shape.node (parseWith readHtml5) 0 E1 (Html.serL false shopOld.body)
      [Html.serL false shopNew.body] = some E2 ∧ dumpBrowserDom quote E2 0 = .ok s ∧
    dumpRustParsed quote upperSome (parseWith readHtml5) (Html.serL false shopNew.body) =
      some (dropLines (emptyLine quote) [] s) := by
  have hf : (readFragment (Html.serL false shopOld.body)).isSome = true := by decide +kernel
  obtain ⟨D, hD⟩ := Option.isSome_iff_exists.1 hf
  have hh : AllHtml (readBodyHtml (Html.serL false shopOld.body)).arena := by
    unfold readBodyHtml
    rw [hD]
    exact readFragment_html hD
  obtain ⟨tag, as, hk⟩ := documentBody_kind shopPage_stage.body
  have ht : tag = "body".toList := by
    have : tagOf shopPage 6 = some "body".toList := by decide +kernel
    unfold tagOf at this
    rw [hk] at this
    exact Option.some.inj this
  subst ht
  exact C88_after_patches_partial (hashNode := Shape.node) (cs := [shopNew.body]) debugStr_quote upperCase_some
    WebDom.lenient (html5 := readHtml5) (frag := readBodyHtml) parsesPages_reader parsesFragments_reader shopPage_stage
    shopPage_html hk (isle := shopIsle) (rank := shopRank) (m := 5) (by decide +kernel) hh shop_contents.1
    (fun _ _ _ _ _ _ _ _ => noCollision_shape _ _ _) shop_contents.2 (by decide +kernel)

/-- Whether the page of the examples is printed as the library's reading of the content that was set, after patches from
`old` to `new`. -/
def sameDump (old new : Str) : Option Bool :=
  match setBodyInnerHtml readBodyHtml shopPage 0 old, Json.diffHtml Shape.node (parseWith readHtml5 (wrapBody old))
      (parseWith readHtml5 (wrapBody new)) with
  | .ok E, .ok s => match applyPatchesJson WebDom.lenient E 0 s with
    | some E => match dumpBrowserDom quote E 0, dumpRustParsed quote upperSome (parseWith readHtml5) new with
      | .ok a, some b => some (decide (a = b))
      | _, _ => none
    | none => none
  | _, _ => none

/-- **C88** is violated: for a content with a comment and for one with an element whose name is not ASCII, the page is
not printed as the library's reading of what was set; and after patches it is not, though the page then has the HTML of
the new content: an empty text node is left over. -/
theorem C88_violated :
    (∃ text : Str, (readFragment text).isSome = true ∧ text = "<!--x-->".toList ∧ sameDump text text = some false) ∧
    (∃ text : Str, (readFragment text).isSome = true ∧ text = "<bñ></bñ>".toList ∧ sameDump text text = some false) ∧
    (∃ old new : Str, sameDump old old = some true ∧ sameDump new new = some true ∧ sameDump old new = some false ∧
      testCase old new = some (some new)) :=
  ⟨⟨_, by decide +kernel, rfl, by decide +kernel⟩, ⟨_, by decide +kernel, rfl, by decide +kernel⟩,
   ⟨"<p>a</p><b>c</b>".toList, "<b>c</b>".toList, by decide +kernel, by decide +kernel, by decide +kernel, by decide +kernel⟩⟩

/-- **C88** is violated in what is printed, too: texts that differ can be printed alike, by either of the functions. -/
theorem C88_texts_confused : ∃ a b : Str, a ≠ b ∧ visible a = visible b ∧
    dumpRustParsed quote upperSome (parseWith readHtml5) a = dumpRustParsed quote upperSome (parseWith readHtml5) b :=
  ⟨"a b".toList, "a·b".toList, by decide +kernel, by decide +kernel, by decide +kernel⟩

end Dump
end Hotmeal
