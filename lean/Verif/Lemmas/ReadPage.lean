import Verif.Lemmas.ReadBuild
import Verif.Props.Parse

set_option autoImplicit false
set_option linter.unusedSectionVars false

/-!
# How the reader takes the HTML of a page
-/

namespace Hotmeal

open Reader

/-- White space between head and body: nothing or one text. -/
def Html.okGap : List Html → Bool
  | [] => true
  | [.text w] => !w.isEmpty && w.all isWs
  | _ => false

/-- A child of the head that can be written and read: white space, a comment, or one of the elements of a head, void or
with raw text. -/
def Html.okHeadKid : Html → Bool
  | .text s => !s.isEmpty && s.all isWs
  | .comment s => okComment s
  | .element tag attrs cs => headTags.contains tag && okTag tag && attrs.all okAttr && decide attrs.Unique &&
      (if voidTags.contains tag then cs.isEmpty
       else match rawKind tag with
        | some k => okRawKids k tag cs
        | none => false)
  | .document => false

/-- The attributes can be written. -/
def Reader.okAttrs (as : Attrs) : Bool := as.all okAttr && decide as.Unique

/-- A page with the given attributes of html, head and body, children of the head, white space after the head, and
children of the body. -/
def Html.pageOf (ha : Attrs) (hda : Attrs) (hs : List Html) (gap : List Html) (ba : Attrs) (cs : List Html) : Html :=
  .element "html".toList ha (.element "head".toList hda hs :: (gap ++ [.element "body".toList ba cs]))

/-- The parts of a page can be written and read. -/
def Html.okPage (ha : Attrs) (hda : Attrs) (hs : List Html) (gap : List Html) (ba : Attrs) (cs : List Html) : Bool :=
  okAttrs ha && okAttrs hda && okAttrs ba && okGap gap && hs.all okHeadKid && apartB hs &&
    readableL ["body".toList, "html".toList] cs && apartB cs

/-- A doctype name that can be written. -/
def Reader.okDoctype (name : Str) : Bool := !name.isEmpty && name.all okTagChar

namespace Reader

theorem okAttrs_iff {as : Attrs} : okAttrs as = true ↔ as.all okAttr = true ∧ as.Unique := by
  simp [okAttrs]

/-! ### Newlines -/

theorem step_cr (s : St) : step s '\r' = none := by simp [step]

theorem no_cr {s s' : St} {t : Str} (h : run s t = some s') : '\r' ∉ t := by
  induction t generalizing s with
  | nil => simp
  | cons c t ih =>
    rw [run_cons] at h
    cases e : step s c with
    | none => rw [e] at h; cases h
    | some s1 =>
      rw [e] at h
      rw [List.mem_cons, not_or]
      refine ⟨?_, ih h⟩
      rintro rfl
      rw [step_cr] at e; cases e

theorem newlines_of_no_cr {t : Str} (h : '\r' ∉ t) : newlines t = t := by
  fun_induction newlines t with
  | case1 => rfl
  | case2 => simp at h
  | case3 => simp at h
  | case4 c cs _ _ ih =>
    rw [List.mem_cons, not_or] at h
    rw [ih h.2]

theorem run_newlines {s s' : St} {t : Str} (h : run s t = some s') : run s (newlines t) = some s' := by
  rw [newlines_of_no_cr (no_cr h), h]

/-! ### Doctype -/

theorem run_doctypeName {s : St} {acc t : Str} (ht : t.all okTagChar = true) :
    run { s with lex := .doctypeName acc } t = some { s with lex := .doctypeName (acc ++ t) } := by
  induction t generalizing acc with
  | nil => simp [run_nil]
  | cons c t ih =>
    simp only [List.all_cons, Bool.and_eq_true, okTagChar_iff] at ht
    obtain ⟨⟨h1, h2, h3, h4, h5⟩, h6⟩ := ht
    rw [run_cons_of (s' := { s with lex := .doctypeName (acc ++ [c]) }), ih h6]
    · simp
    · simp [step, okChar_iff.1 h1, h2, h4, lower_of_not_upper h5]

theorem step_markup {s : St} {acc acc' : Str} {c : Char} (hc : okChar c = true) (h : acc ++ [toLowerAscii c] = acc')
    (h1 : acc' ≠ ['-', '-']) (h2 : acc' ≠ "doctype".toList) (h3 : acc'.isPrefixOf "doctype".toList = true) :
    step { s with lex := .markup acc } c = some { s with lex := .markup acc' } := by
  simp only [step]
  rw [if_neg (okChar_iff.1 hc), h, if_neg h1, if_neg h2, if_pos (.inr h3)]

theorem run_doctype {name : Str} (h : okDoctype name = true) (s : St) (hl : s.lex = .data) (hm : s.mode = .initial) :
    run s ("<!DOCTYPE ".toList ++ name ++ ">".toList) =
      some { s with mode := .beforeHtml, out := s.out ++ [.doctype name] } := by
  have e1 : "<!DOCTYPE ".toList = ['<', '!', 'D', 'O', 'C', 'T', 'Y', 'P', 'E', ' '] := by decide +kernel
  have e2 : ">".toList = ['>'] := by decide +kernel
  rw [e1, e2]
  simp only [okDoctype, Bool.and_eq_true, Bool.not_eq_true'] at h
  cases name with
  | nil => simp at h
  | cons c t =>
    have h2 := h.2
    simp only [List.all_cons, Bool.and_eq_true, okTagChar_iff] at h2
    obtain ⟨⟨a1, a2, a3, a4, a5⟩, a6⟩ := h2
    show run s ('<' :: '!' :: 'D' :: 'O' :: 'C' :: 'T' :: 'Y' :: 'P' :: 'E' :: ' ' :: c :: (t ++ ['>'])) = _
    rw [run_cons_of (s' := { s with lex := .tagOpen }) (by simp [step, hl]),
      run_cons_of (s' := { s with lex := .markup [] }) (by simp [step]),
      run_cons_of (step_markup (acc' := ['d']) (by decide) (by decide) (by decide) (by decide +kernel) (by decide +kernel)),
      run_cons_of (step_markup (acc' := ['d', 'o']) (by decide) (by decide) (by decide) (by decide +kernel) (by decide +kernel)),
      run_cons_of (step_markup (acc' := ['d', 'o', 'c']) (by decide) (by decide) (by decide) (by decide +kernel) (by decide +kernel)),
      run_cons_of (step_markup (acc' := ['d', 'o', 'c', 't']) (by decide) (by decide) (by decide) (by decide +kernel) (by decide +kernel)),
      run_cons_of (step_markup (acc' := ['d', 'o', 'c', 't', 'y']) (by decide) (by decide) (by decide) (by decide +kernel) (by decide +kernel)),
      run_cons_of (step_markup (acc' := ['d', 'o', 'c', 't', 'y', 'p']) (by decide) (by decide) (by decide) (by decide +kernel) (by decide +kernel)),
      run_cons_of (s' := { s with lex := .beforeDoctypeName }), run_cons_of (s' := { s with lex := .beforeDoctypeName }),
      run_cons_of (s' := { s with lex := .doctypeName [c] }), run_append_of (run_doctypeName a6),
      run_cons_of (s' := { s with mode := .beforeHtml, out := s.out ++ [.doctype (c :: t)] }), run_nil]
    · obtain ⟨lex, mode, stack, skip, out⟩ := s
      simp only at hl hm
      subst hl hm
      simp [step, onDoctype]
    · simp [step, okChar_iff.1 a1, a2, a4, lower_of_not_upper a5]
    · simp [step, isWs]
    · simp only [step]
      rw [if_neg (by decide), if_neg (by decide), if_pos (by decide +kernel)]

/-! ### Head -/

theorem isWs_step {c : Char} (h : isWs c = true) : ¬ (c = '\r' ∨ c = Char.ofNat 0) ∧ c ≠ '<' ∧ c ≠ '&' := by
  simp only [isWs, Bool.or_eq_true, decide_eq_true_eq] at h
  rcases h with ((rfl | rfl) | rfl) | rfl <;> decide

/-- White space in a head or after it. -/
theorem run_ws {s : St} {w : Str} (hw : w.all isWs = true) (hl : s.lex = .data)
    (hm : s.mode = .inHead ∨ s.mode = .afterHead) : run s (escText w) = some (w.foldl insertChar s) := by
  induction w generalizing s with
  | nil => rfl
  | cons c w ih =>
    simp only [List.all_cons, Bool.and_eq_true] at hw
    obtain ⟨h1, h2, h3⟩ := isWs_step hw.1
    have e : escTextChar c = [c] := by unfold escTextChar; rw [if_neg h3, if_neg h2]
    rw [escText, List.flatMap_cons, e, List.cons_append, List.nil_append, run_cons_of (s' := insertChar s c)]
    · exact ih hw.2 (by rw [insertChar_lex, hl]) (by rw [insertChar_mode]; exact hm)
    · obtain ⟨lex, mode, stack, skip, out⟩ := s
      simp only at hl hm
      subst hl
      simp only [step]
      rw [if_neg h1, if_neg h2, if_neg h3]
      rcases hm with rfl | rfl <;> simp [onChar, hw.1]

theorem headTags_void {tag : Str} (h : headTags.contains tag = true) : isVoid tag = voidTags.contains tag ∧
    escapedTags.contains tag = false ∧ dropsLf tag = false ∧
    (∀ k, rawKind tag = some k → (isRawText tag = true ↔ k ≠ .rcdata)) := by
  simp only [headTags, List.map_cons, List.map_nil, List.contains_iff_mem, List.mem_cons, List.not_mem_nil, or_false] at h
  rcases h with rfl | rfl | rfl | rfl | rfl | rfl <;>
    refine ⟨by decide +kernel, by decide +kernel, by decide +kernel, ?_⟩ <;> intro k hk <;>
    rcases rawKind_cases hk with ⟨rfl, e⟩ | ⟨rfl, e⟩ | ⟨rfl, e⟩ <;> revert e <;> decide +kernel

theorem run_headKid (t : Html) (h : t.okHeadKid = true) {stack : List Str} {out : List Ev} :
    run ⟨.data, .inHead, stack, false, out⟩ (t.ser false) = some ⟨.data, .inHead, stack, false, out ++ t.evs⟩ := by
  cases t with
  | document => simp [Html.okHeadKid] at h
  | text s =>
    simp only [Html.okHeadKid, Bool.and_eq_true, Bool.not_eq_true', List.isEmpty_eq_false_iff] at h
    simp only [Html.ser, Bool.false_eq_true, if_false]
    rw [run_ws h.2 rfl (.inl rfl), insertChars h.1 (by simp)]
    rfl
  | comment s =>
    simp only [Html.okHeadKid] at h
    simp only [Html.ser]
    rw [run_commentNode h rfl]
    rfl
  | element tag as cs =>
    simp only [Html.okHeadKid, Bool.and_eq_true, decide_eq_true_eq] at h
    obtain ⟨⟨⟨⟨hh, ht⟩, ha⟩, hu⟩, hc⟩ := h
    obtain ⟨v1, v2, v3, v4⟩ := headTags_void hh
    have hs : ∀ l, onStart ⟨l, .inHead, stack, false, out⟩ tag as = some (insert ⟨.data, .inHead, stack, false, out⟩ tag as) := by
      intro l
      simp only [onStart, hh, if_true]
      rw [← insert_lex ⟨.data, .inHead, stack, false, out⟩ l]
    by_cases hv : voidTags.contains tag = true
    · rw [if_pos hv, List.isEmpty_iff] at hc
      exact run_voidElement ht ha hu hv (by rw [v1, hv]) hc rfl hs
    · rw [if_neg hv] at hc
      have hv0 : voidTags.contains tag = false := by simpa using hv
      cases hk : rawKind tag with
      | none => rw [hk] at hc; cases hc
      | some k =>
        rw [hk] at hc
        exact run_rawElement ht ha hu hv0 (by rw [v1, hv0]) hk (fun _ => v4 k hk) hc (by rw [v3]; rfl) rfl (.inr rfl) hs

theorem run_headKids (cs : List Html) (h : cs.all Html.okHeadKid = true) {stack : List Str} {out : List Ev} :
    run ⟨.data, .inHead, stack, false, out⟩ (Html.serL false cs) =
      some ⟨.data, .inHead, stack, false, out ++ Html.evsL cs⟩ := by
  induction cs generalizing out with
  | nil => simp [Html.serL, run_nil, Html.evsL]
  | cons c cs ih =>
    simp only [List.all_cons, Bool.and_eq_true] at h
    simp only [Html.serL]
    rw [run_append_of (run_headKid c h.1), ih h.2]
    simp [Html.evsL]

/-! ### The page -/

theorem insert_plain {s : St} {tag : Str} {as : Attrs} (hv : voidTags.contains tag = false) (hk : rawKind tag = none)
    (hd : dropsLf tag = false) : insert s tag as = ⟨.data, s.mode, tag :: s.stack, false, s.out ++ [.open_ tag as]⟩ := by
  unfold insert; rw [hv, hk, hd]; rfl

/-- A start tag of html, head or body. -/
theorem run_frame {s : St} {tag : Str} {as : Attrs} (ht : okTag tag = true) (ha : okAttrs as = true) (hl : s.lex = .data)
    {s' : St} (h : ∀ l, onStart { s with lex := l } tag as = some s') :
    run s ('<' :: tag ++ serAttrs as ++ ['>']) = some s' := by
  obtain ⟨h1, h2⟩ := okAttrs_iff.1 ha
  obtain ⟨l, e⟩ := run_startTag ht h1 (okAttrs_nodup h1 h2) hl
  rw [e, h l]

/-- What the reader does for a page, except for closing the last two elements. -/
def pageEvs (ha : Attrs) (hda : Attrs) (hs gap : List Html) (ba : Attrs) (cs : List Html) : List Ev :=
  [.open_ "html".toList ha, .open_ "head".toList hda] ++ Html.evsL hs ++ [.close] ++ Html.evsL gap ++
    [.open_ "body".toList ba] ++ Html.evsL cs

theorem run_bodyEnd {cs : List Html} (h : Html.readableL ["body".toList, "html".toList] cs = true) (out : List Ev) :
    run ⟨.data, .inBody, ["body".toList, "html".toList], false, out⟩
      (Html.serL false cs ++ "</".toList ++ "body".toList ++ ['>'] ++ ("</".toList ++ "html".toList ++ ['>'])) =
      some ⟨.data, .afterAfterBody, ["body".toList, "html".toList], false, out ++ Html.evsL cs⟩ := by
  rw [List.append_assoc, List.append_assoc, List.append_assoc, run_append_of (run_trees cs h (by simp)),
    ← List.append_assoc, ← List.append_assoc, List.append_assoc ("</".toList ++ "body".toList)]
  rw [← List.append_assoc ("</".toList ++ "body".toList)]
  rw [run_append_of (s' := ⟨.data, .afterBody, ["body".toList, "html".toList], false, out ++ Html.evsL cs⟩)]
  · rw [run_close (by decide +kernel) rfl]
    simp only [onEnd, if_true]
  · rw [run_close (by decide +kernel) rfl]
    simp only [onEnd, List.head?_cons, if_true]

theorem run_page {ha hda ba : Attrs} {hs gap cs : List Html} (h : Html.okPage ha hda hs gap ba cs = true)
    (out : List Ev) : run ⟨.data, .beforeHtml, [], false, out⟩ ((Html.pageOf ha hda hs gap ba cs).ser false) =
      some ⟨.data, .afterAfterBody, ["body".toList, "html".toList], false, out ++ pageEvs ha hda hs gap ba cs⟩ := by
  simp only [Html.okPage, Bool.and_eq_true] at h
  obtain ⟨⟨⟨⟨⟨⟨⟨h1, h2⟩, h3⟩, h4⟩, h5⟩, h6⟩, h7⟩, h8⟩ := h
  have v1 : isVoid "html".toList = false := by decide +kernel
  have v2 : isVoid "head".toList = false := by decide +kernel
  have v3 : isVoid "body".toList = false := by decide +kernel
  have r1 : isRawText "html".toList = false := by decide +kernel
  have r2 : isRawText "head".toList = false := by decide +kernel
  have r3 : isRawText "body".toList = false := by decide +kernel
  have eser : (Html.pageOf ha hda hs gap ba cs).ser false =
      ('<' :: "html".toList ++ serAttrs ha ++ ['>']) ++ (('<' :: "head".toList ++ serAttrs hda ++ ['>']) ++
        (Html.serL false hs ++ (("</".toList ++ "head".toList ++ ['>']) ++ (Html.serL false gap ++
          (('<' :: "body".toList ++ serAttrs ba ++ ['>']) ++
            (Html.serL false cs ++ "</".toList ++ "body".toList ++ ['>'] ++ ("</".toList ++ "html".toList ++ ['>']))))))) := by
    simp only [Html.pageOf, Html.ser, Html.serL, Html.serL_append, v1, v2, v3, r1, r2, r3, Bool.false_eq_true, if_false,
      List.append_assoc, List.cons_append, List.nil_append, List.append_nil]
  rw [eser]
  rw [run_append_of (run_frame (s' := ⟨.data, .beforeHead, ["html".toList], false, out ++ [.open_ "html".toList ha]⟩)
    (by decide +kernel) h1 rfl ?_)]
  · rw [run_append_of (run_frame (s' := ⟨.data, .inHead, ["head".toList, "html".toList], false,
      out ++ [.open_ "html".toList ha] ++ [.open_ "head".toList hda]⟩) (by decide +kernel) h2 rfl ?_)]
    · rw [run_append_of (run_headKids hs h5), run_append_of (s' := ⟨.data, .afterHead, ["html".toList], false,
        out ++ [.open_ "html".toList ha] ++ [.open_ "head".toList hda] ++ Html.evsL hs ++ [.close]⟩)]
      · rw [run_append_of (s' := ⟨.data, .afterHead, ["html".toList], false,
          out ++ [.open_ "html".toList ha] ++ [.open_ "head".toList hda] ++ Html.evsL hs ++ [.close] ++ Html.evsL gap⟩)]
        · rw [run_append_of (run_frame (s' := ⟨.data, .inBody, ["body".toList, "html".toList], false,
            out ++ [.open_ "html".toList ha] ++ [.open_ "head".toList hda] ++ Html.evsL hs ++ [.close] ++ Html.evsL gap ++
              [.open_ "body".toList ba]⟩) (by decide +kernel) h3 rfl ?_)]
          · rw [run_bodyEnd h7]
            simp [pageEvs]
          · intro l
            simp only [onStart, if_true]
            rw [insert_plain (by decide +kernel) (by decide +kernel) (by decide +kernel)]
        · unfold Html.okGap at h4
          split at h4
          · simp [Html.serL, run_nil, Html.evsL]
          · next w =>
            simp only [Bool.and_eq_true, Bool.not_eq_true', List.isEmpty_eq_false_iff] at h4
            simp only [Html.serL, Html.ser, Bool.false_eq_true, if_false, List.append_nil]
            rw [run_ws h4.2 rfl (.inr rfl), insertChars h4.1 (by simp)]
            simp [Html.evsL, Html.evs]
          · cases h4
      · rw [run_close (by decide +kernel) rfl]
        simp only [onEnd, List.head?_cons, if_true, List.tail_cons]
    · intro l
      simp only [onStart, if_true]
      rw [insert_plain (by decide +kernel) (by decide +kernel) (by decide +kernel)]
  · intro l
    simp only [onStart, if_true]
    rw [insert_plain (by decide +kernel) (by decide +kernel) (by decide +kernel)]

/-! ### What the sink makes of it -/

theorem neat_headKid {t : Html} (h : t.okHeadKid = true) : t.neat = true := by
  cases t with
  | document => simp [Html.okHeadKid] at h
  | text s => simp only [Html.okHeadKid, Bool.and_eq_true] at h; simp only [Html.neat]; exact h.1
  | comment s => simp [Html.neat]
  | element tag as cs =>
    simp only [Html.okHeadKid, Bool.and_eq_true, decide_eq_true_eq] at h
    obtain ⟨⟨_, hu⟩, hc⟩ := h
    simp only [Html.neat, Bool.and_eq_true, decide_eq_true_eq]
    split at hc
    · rw [List.isEmpty_iff] at hc; subst hc; exact ⟨⟨hu, rfl⟩, rfl⟩
    · split at hc
      · obtain ⟨h1, h2⟩ := neatL_text hc; exact ⟨⟨hu, h1⟩, h2⟩
      · cases hc

theorem neatL_all {cs : List Html} (h : ∀ c ∈ cs, c.neat = true) : Html.neatL cs = true := by
  induction cs with
  | nil => rfl
  | cons c cs ih =>
    simp only [Html.neatL, Bool.and_eq_true]
    exact ⟨h c (by simp), ih fun d hd => h d (by simp [hd])⟩

theorem neat_page {ha hda ba : Attrs} {hs gap cs : List Html} (h : Html.okPage ha hda hs gap ba cs = true) :
    (Html.pageOf ha hda hs gap ba cs).neat = true := by
  simp only [Html.okPage, Bool.and_eq_true] at h
  obtain ⟨⟨⟨⟨⟨⟨⟨h1, h2⟩, h3⟩, h4⟩, h5⟩, h6⟩, h7⟩, h8⟩ := h
  have hh : Html.neatL hs = true := neatL_all fun c hc => neat_headKid (List.all_eq_true.1 h5 c hc)
  have hb := neatL_of_readable cs h7
  unfold Html.okGap at h4
  split at h4
  · simp only [Html.pageOf, Html.neat, Html.neatL, Html.apartB, List.nil_append, Html.isTextB, Bool.and_eq_true,
      decide_eq_true_eq]
    exact ⟨⟨(okAttrs_iff.1 h1).2, rfl, trivial⟩, ⟨⟨(okAttrs_iff.1 h2).2, h6⟩, hh⟩, ⟨⟨(okAttrs_iff.1 h3).2, h8⟩, hb⟩, trivial⟩
  · next w =>
    simp only [Bool.and_eq_true] at h4
    simp only [Html.pageOf, Html.neat, Html.neatL, Html.apartB, List.nil_append, List.cons_append, Html.isTextB,
      Bool.and_eq_true, decide_eq_true_eq]
    exact ⟨⟨(okAttrs_iff.1 h1).2, rfl, rfl, trivial⟩, ⟨⟨(okAttrs_iff.1 h2).2, h6⟩, hh⟩, h4.1,
      ⟨⟨(okAttrs_iff.1 h3).2, h8⟩, hb⟩, trivial⟩
  · cases h4

theorem evsL_append (a b : List Html) : Html.evsL (a ++ b) = Html.evsL a ++ Html.evsL b := by
  induction a with
  | nil => rfl
  | cons c a ih => simp [Html.evsL, ih]

/-- The last two elements need not be closed. -/
theorem pageEvs_eq (ha hda ba : Attrs) (hs gap cs : List Html) :
    (Html.pageOf ha hda hs gap ba cs).evs = pageEvs ha hda hs gap ba cs ++ [.close, .close] := by
  simp [Html.pageOf, Html.evs, Html.evsL, evsL_append, pageEvs]

theorem build_unclosed {σ : Site} {evs : List Ev} {S : Sink} {stk : List Nat}
    (h : build σ (evs ++ [.close, .close]) = .ok (S, stk)) : ∃ stk', build σ evs = .ok (S, stk') := by
  rw [build_append] at h
  cases e : build σ evs with
  | error x => rw [e] at h; cases h
  | ok σ' =>
    rw [e] at h
    obtain ⟨S', stk'⟩ := σ'
    refine ⟨stk', ?_⟩
    change Except.ok (S', stk'.tail.tail) = _ at h
    cases h; rfl

theorem newSink : Sink.new.document = 0 ∧ Sink.new.arena.next = 1 ∧ Sink.new.arena.children 0 = [] :=
  ⟨rfl, rfl, rfl⟩

/-- The body of a document whose root is a page. -/
theorem body_at {D : Document} (hw : D.arena.WF) {tag ha hda ba : _} {hs gap cs : List Html}
    (hg : Html.okGap gap = true)
    (ht : D.arena.tree D.root = .element tag ha (.element "head".toList hda hs :: (gap ++ [.element "body".toList ba cs]))) :
    ∃ b, D.body = some b ∧ D.arena.tree b = .element "body".toList ba cs := by
  have key : ∀ (l : List Nat) (ts : List Html), l.map D.arena.tree = ts → ∀ (gap : List Html), Html.okGap gap = true →
      ts = .element "head".toList hda hs :: (gap ++ [.element "body".toList ba cs]) →
      ∃ b, l.find? (D.hasTag "body".toList) = some b ∧ D.arena.tree b = .element "body".toList ba cs := by
    have hd : ∀ n a ks, D.arena.tree n = .element "head".toList a ks → D.hasTag "body".toList n = false := by
      intro n a ks e
      rw [hw.tree_eq] at e
      unfold Document.hasTag
      unfold Html.ofKind at e
      split at e <;> cases e
      next hk => rw [hk]; exact show ("head".toList == "body".toList) = false by decide +kernel
    have hb : ∀ n a ks, D.arena.tree n = .element "body".toList a ks → D.hasTag "body".toList n = true := by
      intro n a ks e
      rw [hw.tree_eq] at e
      unfold Document.hasTag
      unfold Html.ofKind at e
      split at e <;> cases e
      next hk => rw [hk]; exact show ("body".toList == "body".toList) = true by decide +kernel
    have htx : ∀ n s, D.arena.tree n = .text s → D.hasTag "body".toList n = false := by
      intro n s e
      rw [hw.tree_eq] at e
      unfold Document.hasTag
      unfold Html.ofKind at e
      split at e <;> cases e
      next hk => rw [hk]
    intro l ts hl gap hg he
    subst hl
    unfold Html.okGap at hg
    split at hg
    · cases l with
      | nil => simp at he
      | cons a l => cases l with
        | nil => simp at he
        | cons b l => cases l with
          | cons c l => simp at he
          | nil =>
            simp only [List.map_cons, List.map_nil, List.nil_append, List.cons.injEq, and_true] at he
            exact ⟨b, by rw [List.find?_cons, hd a _ _ he.1, List.find?_cons, hb b _ _ he.2], he.2⟩
    · cases l with
      | nil => simp at he
      | cons a l => cases l with
        | nil => simp at he
        | cons x l => cases l with
          | nil => simp at he
          | cons b l => cases l with
            | cons c l => simp at he
            | nil =>
              simp only [List.map_cons, List.map_nil, List.cons_append, List.nil_append, List.cons.injEq, and_true] at he
              exact ⟨b, by rw [List.find?_cons, hd a _ _ he.1, List.find?_cons, htx x _ he.2.1, List.find?_cons,
                hb b _ _ he.2.2], he.2.2⟩
    · cases hg
  rw [hw.tree_eq] at ht
  unfold Html.ofKind at ht
  split at ht <;> simp only [Html.element.injEq, reduceCtorEq] at ht
  next hk =>
    exact key _ _ ht.2.2 gap hg rfl

/-- The content of the body of a document whose root is a page. -/
theorem body_of_tree {D : Document} (hw : D.arena.WF) {tag ha hda ba : _} {hs gap cs : List Html}
    (hg : Html.okGap gap = true)
    (ht : D.arena.tree D.root = .element tag ha (.element "head".toList hda hs :: (gap ++ [.element "body".toList ba cs]))) :
    D.bodyForest = cs := by
  obtain ⟨b, h1, h2⟩ := body_at hw hg ht
  unfold Document.bodyForest
  rw [h1]
  show D.arena.forest b = cs
  rw [hw.tree_eq] at h2
  unfold Html.ofKind at h2
  split at h2 <;> cases h2
  rfl

/-- What is done for a page makes the page. -/
theorem build_page {ha hda ba : Attrs} {hs gap cs : List Html} (h : Html.okPage ha hda hs gap ba cs = true)
    (dt : Option Str) : ∃ S stk, build ({ Sink.new with doctype := dt }, []) (pageEvs ha hda hs gap ba cs) = .ok (S, stk) ∧
      S.finish.Sound ∧ S.finish.arena.tree S.finish.root = Html.pageOf ha hda hs gap ba cs ∧ S.finish.doctype = dt := by
  have hg := Sink.good_new
  obtain ⟨A', i, e, hl⟩ := build_tree (Html.pageOf ha hda hs gap ba cs) (S := { Sink.new with doctype := dt }) (stk := [])
    (neat_page h) hg.arena hg.doc_lt (.inl hg.doc) (by simp [Html.pageOf, Html.isTextB])
  rw [pageEvs_eq] at e
  obtain ⟨stk, e⟩ := build_unclosed e
  have hc : A'.children 0 = [i] := by
    have := hl.children 0 Nat.one_pos
    rw [this]
    rfl
  have hgood : Sink.Good { Sink.new with doctype := dt, arena := A' } :=
    ⟨hl.sound, Nat.lt_of_lt_of_le Nat.one_pos hl.le, by
      show (A'.data 0).kind = _
      rw [hl.data 0 Nat.one_pos]; rfl⟩
  refine ⟨_, stk, e, hgood.finish, ?_, rfl⟩
  have hr : (Sink.finish { Sink.new with doctype := dt, arena := A' }).root = i := by
    show ((A'.children 0).head?).getD 0 = i
    rw [hc]; rfl
  show A'.tree _ = _
  rw [hr]
  have := hl.trees
  simpa using this

/-- A page with a doctype is read as it was. -/
theorem readPage_page {ha hda ba : Attrs} {hs gap cs : List Html} (h : Html.okPage ha hda hs gap ba cs = true)
    {name : Str} (hn : okDoctype name = true) :
    ∃ D, readPage ("<!DOCTYPE ".toList ++ name ++ ">".toList ++ (Html.pageOf ha hda hs gap ba cs).ser false) = some D ∧
      D.Sound ∧ D.arena.tree D.root = Html.pageOf ha hda hs gap ba cs ∧ D.doctype = some name := by
  obtain ⟨S, stk, e, h1, h2, h3⟩ := build_page h (some name)
  refine ⟨S.finish, ?_, h1, h2, h3⟩
  have hr : run ⟨.data, .initial, [], false, []⟩
      ("<!DOCTYPE ".toList ++ name ++ ">".toList ++ (Html.pageOf ha hda hs gap ba cs).ser false) =
      some ⟨.data, .afterAfterBody, ["body".toList, "html".toList], false, [.doctype name] ++ pageEvs ha hda hs gap ba cs⟩ := by
    rw [run_append_of (run_doctype hn _ rfl rfl), run_page h]
    rfl
  unfold readPage page
  rw [run_newlines hr]
  simp only [and_self, if_true]
  rw [build_append_of (σ' := ({ Sink.new with doctype := some name }, []))]
  · rw [e]
  · rfl

/-- Content that `parse` wraps is read as it was. -/
theorem readPage_content {cs : List Html} (h : Html.readableL ["body".toList, "html".toList] cs = true)
    (ha : Html.apartB cs = true) :
    ∃ D, readPage ("<!DOCTYPE html><html><body>".toList ++ Html.serL false cs ++ "</body></html>".toList) = some D ∧
      D.Sound ∧ D.arena.tree D.root = Html.pageOf [] [] [] [] [] cs := by
  have hok : Html.okPage [] [] [] [] [] cs = true := by
    simp only [Html.okPage, Bool.and_eq_true]
    exact ⟨⟨⟨⟨⟨⟨⟨rfl, rfl⟩, rfl⟩, rfl⟩, rfl⟩, rfl⟩, h⟩, ha⟩
  obtain ⟨S, stk, e, h1, h2, h3⟩ := build_page hok (some "html".toList)
  refine ⟨S.finish, ?_, h1, h2⟩
  have e1 : "<!DOCTYPE html><html><body>".toList = ("<!DOCTYPE ".toList ++ "html".toList ++ ">".toList) ++
      (('<' :: "html".toList ++ serAttrs [] ++ ['>']) ++ ('<' :: "body".toList ++ serAttrs [] ++ ['>'])) := by decide +kernel
  have e2 : "</body></html>".toList = "</".toList ++ "body".toList ++ ['>'] ++ ("</".toList ++ "html".toList ++ ['>']) := by
    decide +kernel
  have hr : run ⟨.data, .initial, [], false, []⟩
      ("<!DOCTYPE html><html><body>".toList ++ Html.serL false cs ++ "</body></html>".toList) =
      some ⟨.data, .afterAfterBody, ["body".toList, "html".toList], false,
        [.doctype "html".toList] ++ pageEvs [] [] [] [] [] cs⟩ := by
    rw [e1, List.append_assoc, List.append_assoc, run_append_of (run_doctype (by decide +kernel) _ rfl rfl), List.append_assoc,
      run_append_of (run_frame (s' := ⟨.data, .beforeHead, ["html".toList], false,
        [.doctype "html".toList] ++ [.open_ "html".toList []]⟩) (by decide +kernel) rfl rfl ?_)]
    · rw [run_append_of (run_frame (s' := ⟨.data, .inBody, ["body".toList, "html".toList], false,
        [.doctype "html".toList] ++ [.open_ "html".toList []] ++ [.open_ "head".toList [], .close] ++
          [.open_ "body".toList []]⟩) (by decide +kernel) rfl rfl ?_)]
      · have := run_bodyEnd h ([.doctype "html".toList] ++ [.open_ "html".toList []] ++ [.open_ "head".toList [], .close] ++
          [.open_ "body".toList []])
        rw [e2]
        simp only [List.append_assoc] at this ⊢
        rw [this]
        simp only [pageEvs, Html.evsL, List.append_nil, List.append_assoc, List.cons_append, List.nil_append]
      · intro l
        have hb : "body".toList ≠ "head".toList := by decide +kernel
        simp only [onStart, if_true, hb, if_false]
        rw [insert_plain (by decide +kernel) (by decide +kernel) (by decide +kernel)]
    · intro l
      simp only [onStart, if_true]
      rw [insert_plain (by decide +kernel) (by decide +kernel) (by decide +kernel)]
      rfl
  unfold readPage page
  rw [run_newlines hr]
  simp only [and_self, if_true]
  rw [build_append_of (σ' := ({ Sink.new with doctype := some "html".toList }, []))]
  · rw [e]
  · rfl

/-- What is checked of the beginning of a fragment. -/
def fragmentStartB : Bool :=
  match Sink.new.checkAll Sink.fragmentStart with
  | none => false
  | some S => decide (S.document = 0) && decide (S.arena.next = 3) && decide (S.arena.children 0 = [2]) &&
      decide (S.arena.children 2 = []) && decide ((S.arena.data 2).kind = .element "html".toList []) &&
      decide ((S.arena.data 0).kind = .document)

/-- A fragment is read as it was. -/
theorem readFragment_forest {cs : List Html} (h : Html.readableL ["html".toList] cs = true)
    (ha : Html.apartB cs = true) :
    ∃ D, readFragment (Html.serL false cs) = some D ∧ D.Sound ∧ D.arena.tree D.root = .element "html".toList [] cs := by
  have hB : fragmentStartB = true := by decide +kernel
  unfold fragmentStartB at hB
  split at hB
  · cases hB
  · next S hc =>
    simp only [Bool.and_eq_true, decide_eq_true_eq] at hB
    obtain ⟨⟨⟨⟨⟨b1, b2⟩, b3⟩, b4⟩, b5⟩, b6⟩ := hB
    obtain ⟨hsafe, hrun⟩ := Sink.checkAll_spec Sink.good_new hc
    have hgood : S.Good := Sink.good_runAll Sink.good_new hsafe hrun
    obtain ⟨A', ids, e, hl⟩ := build_trees cs (S := S) (stk := [2]) (neatL_of_readable cs h) ha hgood.arena
      (by rw [b2]; exact (by decide : 2 < 3)) (.inr ⟨_, _, b5⟩) (by
        intro _ l hl
        simp only [List.headD_cons, b4, List.getLast?_nil] at hl
        cases hl)
    simp only [List.headD_cons] at hl
    have c0 : A'.children 0 = [2] := by rw [hl.children 0 (by omega), b3]; rfl
    have c2 : A'.children 2 = ids := by rw [hl.children 2 (by omega), b4]; rfl
    have d2 : (A'.data 2).kind = .element "html".toList [] := by rw [hl.data 2 (by omega), b5]
    have hg' : Sink.Good { S with arena := A' } := ⟨hl.sound, by
      show S.document < A'.next
      have := hl.le; omega, by
      show (A'.data S.document).kind = _
      rw [b1, hl.data 0 (by omega), b6]⟩
    have hr : (Sink.finish { S with arena := A' }).root = 2 := by
      show ((A'.children S.document).head?).getD S.document = 2
      rw [b1, c0]; rfl
    refine ⟨Sink.finish { S with arena := A' }, ?_, hg'.finish, ?_⟩
    · unfold readFragment fragment
      rw [run_newlines (run_trees cs h (by simp))]
      simp only [and_self, if_true, hrun, List.nil_append]
      rw [e]
    · show A'.tree _ = _
      rw [hr, hl.sound.wf.tree_eq, d2, Arena.forest, c2, hl.trees]
      rfl

end Reader
end Hotmeal
