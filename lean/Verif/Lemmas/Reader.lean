import Verif.Spec.Reader
import Verif.Spec.Html

set_option autoImplicit false
set_option linter.unusedSectionVars false

/-!
# How the reader takes what the library writes, piece by piece
-/

namespace Hotmeal
namespace Reader

/-- Characters that can be written as they are: no carriage return and no NUL. -/
def okChar (c : Char) : Bool := c != '\r' && c != Char.ofNat 0

/-- Upper case ASCII letters. -/
def isUpper (c : Char) : Bool := 65 ≤ c.toNat && c.toNat ≤ 90

/-- A character of a tag. -/
def okTagChar (c : Char) : Bool := okChar c && !isWs c && c != '/' && c != '>' && !isUpper c

/-- A tag that can be written: a lower case letter, then any characters except white space, slash, greater-than sign
and upper case letters. -/
def okTag : Str → Bool
  | [] => false
  | c :: cs => isAlpha c && okTagChar c && cs.all okTagChar

/-- An attribute name that can be written: not empty, without prefix, and made of any characters except white space,
slash, greater-than sign, equals sign and upper case letters. -/
def okName (q : QualName) : Bool :=
  q.prefix_ == none && q.ns == [] && !q.loc.isEmpty && q.loc.all fun c => okTagChar c && c != '='

/-- An attribute that can be written. -/
def okAttr (kv : QualName × Str) : Bool := okName kv.1 && kv.2.all okChar

theorem okChar_iff {c : Char} : okChar c = true ↔ ¬ (c = '\r' ∨ c = Char.ofNat 0) := by
  simp [okChar, not_or]

theorem lower_of_not_upper {c : Char} (h : isUpper c = false) : toLowerAscii c = c := by
  unfold toLowerAscii
  rw [if_neg]
  intro hh
  simp [isUpper, hh] at h

theorem run_nil (s : St) : run s [] = some s := rfl

theorem run_cons (s : St) (c : Char) (t : Str) : run s (c :: t) = (step s c).bind fun s' => run s' t := rfl

theorem run_append (s : St) (t u : Str) : run s (t ++ u) = (run s t).bind fun s' => run s' u := by
  simp [run, List.foldlM_append]

theorem run_append_of {s s' : St} {t u : Str} (h : run s t = some s') : run s (t ++ u) = run s' u := by
  rw [run_append, h]; rfl

theorem run_cons_of {s s' : St} {c : Char} {t : Str} (h : step s c = some s') : run s (c :: t) = run s' t := by
  rw [run_cons, h]; rfl

/-! ### Characters -/

theorem refChar_amp : refChar ['a', 'm', 'p'] = some '&' := by decide +kernel
theorem refChar_lt : refChar ['l', 't'] = some '<' := by decide +kernel
theorem refChar_gt : refChar ['g', 't'] = some '>' := by decide +kernel
theorem refChar_quot : refChar ['q', 'u', 'o', 't'] = some '"' := by decide +kernel

theorem toList_amp : "&amp;".toList = '&' :: (['a', 'm', 'p'] ++ [';']) := by decide +kernel
theorem toList_lt : "&lt;".toList = '&' :: (['l', 't'] ++ [';']) := by decide +kernel
theorem toList_gt : "&gt;".toList = '&' :: (['g', 't'] ++ [';']) := by decide +kernel
theorem toList_quot : "&quot;".toList = '&' :: (['q', 'u', 'o', 't'] ++ [';']) := by decide +kernel

theorem insertChar_lex (s : St) (c : Char) : (insertChar s c).lex = s.lex := by unfold insertChar; split <;> rfl
theorem insertChar_mode (s : St) (c : Char) : (insertChar s c).mode = s.mode := by unfold insertChar; split <;> rfl
theorem insertChar_stack (s : St) (c : Char) : (insertChar s c).stack = s.stack := by unfold insertChar; split <;> rfl

/-- Insert characters in any state of the tokenizer. -/
theorem insertChar_with (s : St) (l : Lex) (c : Char) : insertChar { s with lex := l } c = { insertChar s c with lex := l } := by
  unfold insertChar; split <;> rfl

theorem alpha_step {c : Char} (h : isAlpha c = true) : ¬ (c = '\r' ∨ c = Char.ofNat 0) ∧ c ≠ ';' := by
  refine ⟨?_, ?_⟩
  · rintro (rfl | rfl) <;> (revert h; decide)
  · rintro rfl; revert h; decide

/-- The name of a character reference in a text. -/
theorem run_dataRef {s : St} {acc t : Str} (ht : t.all isAlpha = true) :
    run { s with lex := .dataRef acc } t = some { s with lex := .dataRef (acc ++ t) } := by
  induction t generalizing acc with
  | nil => simp [run_nil]
  | cons c t ih =>
    simp only [List.all_cons, Bool.and_eq_true] at ht
    obtain ⟨h1, h2⟩ := alpha_step ht.1
    rw [run_cons_of (s' := { s with lex := .dataRef (acc ++ [c]) }), ih ht.2]
    · simp
    · simp only [step]; rw [if_neg h1, if_neg h2, if_pos ht.1]

/-- The name of a character reference in an attribute. -/
theorem run_valueRef {s : St} {tag name v acc t : Str} {as : Attrs} (ht : t.all isAlpha = true) :
    run { s with lex := .valueRef tag as name v acc } t = some { s with lex := .valueRef tag as name v (acc ++ t) } := by
  induction t generalizing acc with
  | nil => simp [run_nil]
  | cons c t ih =>
    simp only [List.all_cons, Bool.and_eq_true] at ht
    obtain ⟨h1, h2⟩ := alpha_step ht.1
    rw [run_cons_of (s' := { s with lex := .valueRef tag as name v (acc ++ [c]) }), ih ht.2]
    · simp
    · simp only [step]; rw [if_neg h1, if_neg h2, if_pos ht.1]

/-- The name of a character reference in raw text. -/
theorem run_rawRef {s : St} {tag acc t : Str} (ht : t.all isAlpha = true) :
    run { s with lex := .rawRef tag acc } t = some { s with lex := .rawRef tag (acc ++ t) } := by
  induction t generalizing acc with
  | nil => simp [run_nil]
  | cons c t ih =>
    simp only [List.all_cons, Bool.and_eq_true] at ht
    obtain ⟨h1, h2⟩ := alpha_step ht.1
    rw [run_cons_of (s' := { s with lex := .rawRef tag (acc ++ [c]) }), ih ht.2]
    · simp
    · simp only [step]; rw [if_neg h1, if_neg h2, if_pos ht.1]

/-- A character reference in a text. -/
theorem run_ref {s : St} {name : Str} {d : Char} (hr : refChar name = some d) (hn : name.all isAlpha = true)
    (hd : charFits s.stack d = true) (hl : s.lex = .data) (hm : s.mode = .inBody) :
    run s ('&' :: (name ++ [';'])) = some (insertChar s d) := by
  obtain ⟨lex, mode, stack, skip, out⟩ := s
  simp only at hl hm hd
  subst hl hm
  rw [run_cons_of (s' := ⟨.dataRef [], .inBody, stack, skip, out⟩) (by simp [step]),
    run_append_of (run_dataRef (s := ⟨.data, .inBody, stack, skip, out⟩) hn), List.nil_append,
    run_cons_of (s' := insertChar ⟨.data, .inBody, stack, skip, out⟩ d), run_nil]
  simp [step, hr, onChar, hd]

/-- A character reference in raw text. -/
theorem run_ref_raw {s : St} {tag name : Str} {d : Char} (hr : refChar name = some d) (hn : name.all isAlpha = true)
    (hl : s.lex = .raw .rcdata tag) : run s ('&' :: (name ++ [';'])) = some (insertChar s d) := by
  obtain ⟨lex, mode, stack, skip, out⟩ := s
  simp only at hl
  subst hl
  rw [run_cons_of (s' := ⟨.rawRef tag [], mode, stack, skip, out⟩) (by simp [step, rawChar]),
    run_append_of (run_rawRef (s := ⟨.data, mode, stack, skip, out⟩) hn), List.nil_append,
    run_cons_of (s' := insertChar ⟨.raw .rcdata tag, mode, stack, skip, out⟩ d), run_nil]
  simp [step, hr, insertChar]
  split <;> rfl

/-- A character reference in an attribute. -/
theorem run_ref_value {s : St} {tag aname acc name : Str} {as : Attrs} {d : Char} (hr : refChar name = some d)
    (hn : name.all isAlpha = true) : run { s with lex := .value tag as aname acc } ('&' :: (name ++ [';'])) =
      some { s with lex := .value tag as aname (acc ++ [d]) } := by
  rw [run_cons_of (s' := { s with lex := .valueRef tag as aname acc [] }) (by simp [step]),
    run_append_of (run_valueRef hn), List.nil_append,
    run_cons_of (s' := { s with lex := .value tag as aname (acc ++ [d]) }), run_nil]
  simp [step, hr]

/-- A character of a text node. -/
theorem run_escTextChar {s : St} {c : Char} (hc : okChar c = true) (hd : charFits s.stack c = true) (hl : s.lex = .data)
    (hm : s.mode = .inBody) : run s (escTextChar c) = some (insertChar s c) := by
  unfold escTextChar
  split
  · next e => subst e; rw [toList_amp]; exact run_ref refChar_amp (by decide) hd hl hm
  · split
    · next e => subst e; rw [toList_lt]; exact run_ref refChar_lt (by decide) hd hl hm
    · next h1 h2 =>
      obtain ⟨lex, mode, stack, skip, out⟩ := s
      simp only at hl hm hd
      subst hl hm
      rw [run_cons_of (s' := insertChar ⟨.data, .inBody, stack, skip, out⟩ c), run_nil]
      simp only [step]
      rw [if_neg (okChar_iff.1 hc), if_neg h2, if_neg h1]
      simp only [onChar, hd, if_true]

theorem run_escText {s : St} {t : Str} (ht : t.all okChar = true) (hd : t.all (charFits s.stack) = true)
    (hl : s.lex = .data) (hm : s.mode = .inBody) : run s (escText t) = some (t.foldl insertChar s) := by
  induction t generalizing s with
  | nil => rfl
  | cons c t ih =>
    simp only [List.all_cons, Bool.and_eq_true] at ht hd
    rw [escText, List.flatMap_cons, run_append_of (run_escTextChar ht.1 hd.1 hl hm)]
    exact ih ht.2 (by rw [insertChar_stack]; exact hd.2) (by rw [insertChar_lex, hl]) (by rw [insertChar_mode, hm])

/-- A character of a text in an element that has only text, with character references. -/
theorem run_escTextChar_raw {s : St} {tag : Str} {c : Char} (hc : okChar c = true) (hl : s.lex = .raw .rcdata tag) :
    run s (escTextChar c) = some (insertChar s c) := by
  unfold escTextChar
  split
  · next e => subst e; rw [toList_amp]; exact run_ref_raw refChar_amp (by decide) hl
  · split
    · next e => subst e; rw [toList_lt]; exact run_ref_raw refChar_lt (by decide) hl
    · next h1 h2 =>
      obtain ⟨lex, mode, stack, skip, out⟩ := s
      simp only at hl
      subst hl
      rw [run_cons_of (s' := insertChar ⟨.raw .rcdata tag, mode, stack, skip, out⟩ c), run_nil]
      simp only [step, rawChar]
      rw [if_neg (okChar_iff.1 hc), if_neg h2, if_neg (fun h => h1 h.1)]
      rw [← insertChar_with]

theorem run_escText_raw {s : St} {tag t : Str} (ht : t.all okChar = true) (hl : s.lex = .raw .rcdata tag) :
    run s (escText t) = some (t.foldl insertChar s) := by
  induction t generalizing s with
  | nil => rfl
  | cons c t ih =>
    simp only [List.all_cons, Bool.and_eq_true] at ht
    rw [escText, List.flatMap_cons, run_append_of (run_escTextChar_raw ht.1 hl)]
    exact ih ht.2 (by rw [insertChar_lex, hl])

/-- A text that does not begin with a line feed to be dropped. -/
theorem insertChars {s : St} {t : Str} (ht : t ≠ []) (h : s.skip = true → t.head? ≠ some '\n') :
    t.foldl insertChar s = { s with skip := false, out := s.out ++ t.map Ev.char } := by
  have key : ∀ (t : Str) (s : St), s.skip = false →
      t.foldl insertChar s = { s with skip := false, out := s.out ++ t.map Ev.char } := by
    intro t
    induction t with
    | nil => rintro ⟨a, b, c, d, e⟩ h; simp at h; simp [h]
    | cons c t ih =>
      intro s h
      rw [List.foldl_cons]
      have : insertChar s c = { s with skip := false, out := s.out ++ [Ev.char c] } := by
        unfold insertChar; simp [h]
      rw [this, ih _ rfl]
      simp
  cases t with
  | nil => exact absurd rfl ht
  | cons c t =>
    rw [List.foldl_cons]
    have : insertChar s c = { s with skip := false, out := s.out ++ [Ev.char c] } := by
      unfold insertChar
      rw [if_neg]
      intro hh
      simp only [Bool.and_eq_true, decide_eq_true_eq] at hh
      exact h hh.1 (by rw [hh.2]; rfl)
    rw [this, key _ _ rfl]
    simp

/-! ### Tags -/

theorem okTagChar_iff {c : Char} : okTagChar c = true ↔
    okChar c = true ∧ isWs c = false ∧ c ≠ '/' ∧ c ≠ '>' ∧ isUpper c = false := by
  simp [okTagChar, and_assoc]

theorem run_tagName {s : St} {acc t : Str} (ht : t.all okTagChar = true) :
    run { s with lex := .tagName acc } t = some { s with lex := .tagName (acc ++ t) } := by
  induction t generalizing acc with
  | nil => simp [run_nil]
  | cons c t ih =>
    simp only [List.all_cons, Bool.and_eq_true, okTagChar_iff] at ht
    obtain ⟨⟨h1, h2, h3, h4, h5⟩, h6⟩ := ht
    rw [run_cons_of (s' := { s with lex := .tagName (acc ++ [c]) }), ih h6]
    · simp
    · simp [step, okChar_iff.1 h1, h2, h3, h4, lower_of_not_upper h5]

theorem run_endName {s : St} {acc t : Str} (ht : t.all okTagChar = true) :
    run { s with lex := .endName acc } t = some { s with lex := .endName (acc ++ t) } := by
  induction t generalizing acc with
  | nil => simp [run_nil]
  | cons c t ih =>
    simp only [List.all_cons, Bool.and_eq_true, okTagChar_iff] at ht
    obtain ⟨⟨h1, h2, h3, h4, h5⟩, h6⟩ := ht
    rw [run_cons_of (s' := { s with lex := .endName (acc ++ [c]) }), ih h6]
    · simp
    · simp [step, okChar_iff.1 h1, h2, h3, h4, lower_of_not_upper h5]

theorem isAlpha_ne {c : Char} (h : isAlpha c = true) : c ≠ '!' ∧ c ≠ '/' ∧ c ≠ '\r' ∧ c ≠ Char.ofNat 0 ∧ c ≠ '>' := by
  refine ⟨?_, ?_, ?_, ?_, ?_⟩ <;> (rintro rfl; revert h; decide)

/-- The beginning of a start tag. -/
theorem run_open {s : St} {tag : Str} (ht : okTag tag = true) (hl : s.lex = .data) :
    run s ('<' :: tag) = some { s with lex := .tagName tag } := by
  cases tag with
  | nil => simp [okTag] at ht
  | cons c t =>
    simp only [okTag, Bool.and_eq_true] at ht
    obtain ⟨⟨h1, h2⟩, h3⟩ := ht
    obtain ⟨e1, e2, e3, e4, _⟩ := isAlpha_ne h1
    have hu := (okTagChar_iff.1 h2).2.2.2.2
    rw [run_cons_of (s' := { s with lex := .tagOpen }), run_cons_of (s' := { s with lex := .tagName [c] }), run_tagName h3]
    · rfl
    · simp [step, e1, e2, e3, e4, h1, lower_of_not_upper hu]
    · simp [step, hl]

/-- An end tag. -/
theorem run_close {s : St} {tag : Str} (ht : okTag tag = true) (hl : s.lex = .data) :
    run s ("</".toList ++ tag ++ ['>']) = onEnd { s with lex := .endName tag } tag := by
  have e : "</".toList = ['<', '/'] := by decide +kernel
  rw [e]
  cases tag with
  | nil => simp [okTag] at ht
  | cons c t =>
    simp only [okTag, Bool.and_eq_true] at ht
    obtain ⟨⟨h1, h2⟩, h3⟩ := ht
    obtain ⟨e1, e2, e3, e4, _⟩ := isAlpha_ne h1
    have hu := (okTagChar_iff.1 h2).2.2.2.2
    show run s ('<' :: '/' :: c :: (t ++ ['>'])) = _
    rw [run_cons_of (s' := { s with lex := .tagOpen }), run_cons_of (s' := { s with lex := .endTagOpen }),
      run_cons_of (s' := { s with lex := .endName [c] }), run_append_of (run_endName h3)]
    · rw [run_cons]
      simp only [step, List.cons_append, List.nil_append]
      rw [if_neg (by decide)]
      simp only [if_pos]
      cases onEnd { s with lex := .endName (c :: t) } (c :: t) <;> rfl
    · simp [step, e3, e4, h1, lower_of_not_upper hu]
    · simp [step]
    · simp [step, hl]

/-! ### Attributes -/

theorem run_attrName {s : St} {tag acc t : Str} {as : Attrs} (ht : t.all (fun c => okTagChar c && c != '=') = true) :
    run { s with lex := .attrName tag as acc } t = some { s with lex := .attrName tag as (acc ++ t) } := by
  induction t generalizing acc with
  | nil => simp [run_nil]
  | cons c t ih =>
    simp only [List.all_cons, Bool.and_eq_true, okTagChar_iff, bne_iff_ne] at ht
    obtain ⟨⟨⟨h1, h2, h3, h4, h5⟩, h7⟩, h6⟩ := ht
    rw [run_cons_of (s' := { s with lex := .attrName tag as (acc ++ [c]) }), ih]
    · simp
    · simpa [okTagChar_iff, and_assoc] using h6
    · simp [step, okChar_iff.1 h1, h2, h3, h4, h7, lower_of_not_upper h5]

theorem run_escAttrChar {s : St} {tag name acc : Str} {as : Attrs} {c : Char} (hc : okChar c = true) :
    run { s with lex := .value tag as name acc } (escAttrChar c) = some { s with lex := .value tag as name (acc ++ [c]) } := by
  unfold escAttrChar
  split
  · next e => subst e; rw [toList_amp]; exact run_ref_value refChar_amp (by decide)
  · split
    · next e => subst e; rw [toList_quot]; exact run_ref_value refChar_quot (by decide)
    · split
      · next e => subst e; rw [toList_lt]; exact run_ref_value refChar_lt (by decide)
      · split
        · next e => subst e; rw [toList_gt]; exact run_ref_value refChar_gt (by decide)
        · next h1 h2 h3 h4 => simp [run_cons, run_nil, step, h1, h2, okChar_iff.1 hc]

theorem run_escAttr {s : St} {tag name acc v : Str} {as : Attrs} (hv : v.all okChar = true) :
    run { s with lex := .value tag as name acc } (escAttr v) = some { s with lex := .value tag as name (acc ++ v) } := by
  induction v generalizing acc with
  | nil => simp [escAttr, run_nil]
  | cons c v ih =>
    simp only [List.all_cons, Bool.and_eq_true] at hv
    rw [escAttr, List.flatMap_cons, run_append_of (run_escAttrChar hv.1)]
    rw [← escAttr, ih hv.2]; simp

theorem okName_iff {q : QualName} : okName q = true ↔ ∃ c t, q = ⟨none, [], c :: t⟩ ∧
    ((c :: t).all fun c => okTagChar c && c != '=') = true := by
  obtain ⟨p, n, l⟩ := q
  cases l with
  | nil => simp [okName]
  | cons c t => simp [okName, and_assoc]

/-- One attribute. -/
theorem run_attr {s : St} {tag : Str} {as : Attrs} {kv : QualName × Str} (h : okAttr kv = true)
    (hn : kv.1.loc ∉ as.map fun kv => kv.1.loc) :
    run { s with lex := .beforeAttr tag as } (serName kv.1 ++ '=' :: '"' :: (escAttr kv.2 ++ ['"'])) =
      some { s with lex := .afterValue tag (as ++ [kv]) } := by
  obtain ⟨q, v⟩ := kv
  simp only [okAttr, Bool.and_eq_true] at h
  obtain ⟨c, t, rfl, h1⟩ := okName_iff.1 h.1
  have h1' := h1
  simp only [List.all_cons, Bool.and_eq_true, okTagChar_iff, bne_iff_ne] at h1
  obtain ⟨⟨⟨a1, a2, a3, a4, a5⟩, a6⟩, a7⟩ := h1
  have e : serName ⟨none, [], c :: t⟩ = c :: t := rfl
  simp only [e] at hn ⊢
  rw [List.cons_append, run_cons_of (s' := { s with lex := .attrName tag as [c] }), run_append_of (run_attrName (by
    simp only [List.all_cons, Bool.and_eq_true] at h1'; simpa [okTagChar_iff, and_assoc] using h1'.2)),
    run_cons_of (s' := { s with lex := .beforeValue tag as (c :: t) }),
    run_cons_of (s' := { s with lex := .value tag as (c :: t) [] }), run_append_of (run_escAttr h.2),
    run_cons_of (s' := { s with lex := .afterValue tag (as ++ [(⟨none, [], c :: t⟩, v)]) }), run_nil]
  · have : (as.any fun kv => decide (kv.1.loc = c :: t)) = false := by
      rw [Bool.eq_false_iff]
      intro hh
      obtain ⟨x, hx, ex⟩ := List.any_eq_true.1 hh
      exact hn (List.mem_map.2 ⟨x, hx, of_decide_eq_true ex⟩)
    simp [step, addAttr, this]
  · simp [step]
  · simp [step]
  · simp [step, okChar_iff.1 a1, a2, a3, a4, a6, lower_of_not_upper a5]

theorem run_attrs {s : St} {tag : Str} {as bs : Attrs} (h : bs.all okAttr = true)
    (hn : ((as ++ bs).map fun kv => kv.1.loc).Nodup) :
    run { s with lex := .afterValue tag as } (serAttrs bs) = some { s with lex := .afterValue tag (as ++ bs) } := by
  induction bs generalizing as with
  | nil => simp [serAttrs, run_nil]
  | cons kv bs ih =>
    simp only [List.all_cons, Bool.and_eq_true] at h
    rw [serAttrs, List.flatMap_cons, List.cons_append, run_cons_of (s' := { s with lex := .beforeAttr tag as }),
      run_append_of (run_attr h.1 ?_)]
    · rw [← serAttrs, ih h.2 (by simpa using hn)]; simp
    · simp only [List.map_append, List.map_cons, List.nodup_append] at hn
      intro hh
      exact hn.2.2 _ hh _ (List.mem_cons_self ..) rfl
    · simp [step, isWs]

/-- A start tag. -/
theorem run_startTag {s : St} {tag : Str} {as : Attrs} (ht : okTag tag = true) (ha : as.all okAttr = true)
    (hn : (as.map fun kv => kv.1.loc).Nodup) (hl : s.lex = .data) :
    ∃ l, run s ('<' :: tag ++ serAttrs as ++ ['>']) = onStart { s with lex := l } tag as := by
  have fin : ∀ (l : Lex), step { s with lex := l } '>' = onStart { s with lex := l } tag as →
      run { s with lex := l } ['>'] = onStart { s with lex := l } tag as := by
    intro l e
    rw [run_cons, e]
    cases onStart { s with lex := l } tag as <;> rfl
  cases as with
  | nil =>
    refine ⟨.tagName tag, ?_⟩
    rw [show serAttrs [] = [] from rfl, List.append_nil, run_append_of (run_open ht hl)]
    exact fin _ (by simp [step, isWs])
  | cons kv as =>
    refine ⟨.afterValue tag (kv :: as), ?_⟩
    simp only [List.all_cons, Bool.and_eq_true] at ha
    rw [List.append_assoc, run_append_of (run_open ht hl), serAttrs, List.flatMap_cons, List.append_assoc,
      List.cons_append, run_cons_of (s' := { s with lex := .beforeAttr tag [] }),
      run_append_of (run_attr ha.1 (by simp)), ← serAttrs, run_append_of (run_attrs ha.2 (by simpa using hn))]
    · exact fin _ (by simp [step, isWs])
    · simp [step, isWs]

theorem insert_lex (s : St) (l : Lex) (tag : Str) (as : Attrs) : insert { s with lex := l } tag as = insert s tag as := by
  unfold insert; split <;> rfl

/-! ### Comments -/

/-- A comment that can be written: it does not begin with a greater-than sign or `->`, does not contain `--` and does
not end in `-`. -/
def okComment (s : Str) : Bool :=
  s.all okChar && !(['>'].isPrefixOf s) && !(['-', '>'].isPrefixOf s) && !containsSub ['-', '-'] (s ++ ['-'])

/-- In a comment, not after a dash. -/
theorem run_comment {s : St} {acc t : Str} (h1 : t.all okChar = true) (h2 : containsSub ['-', '-'] (t ++ ['-']) = false) :
    run { s with lex := .comment acc } (t ++ ['-', '-', '>']) = onComment { s with lex := .commentEnd (acc ++ t) } (acc ++ t) ∧
    (t.head? ≠ some '-' → run { s with lex := .commentDash acc } (t ++ ['-', '-', '>']) =
      if t = [] then onComment { s with lex := .commentEnd (acc ++ ['-']) } (acc ++ ['-'])
      else onComment { s with lex := .commentEnd (acc ++ '-' :: t) } (acc ++ '-' :: t)) := by
  have fin : ∀ acc, run { s with lex := .commentEnd acc } ['>'] = onComment { s with lex := .commentEnd acc } acc := by
    intro acc
    rw [run_cons]
    have : step { s with lex := .commentEnd acc } '>' = onComment { s with lex := .commentEnd acc } acc := by simp [step]
    rw [this]
    cases onComment { s with lex := .commentEnd acc } acc <;> rfl
  induction t generalizing acc with
  | nil =>
    constructor
    · rw [List.append_nil]
      show run _ ['-', '-', '>'] = _
      rw [run_cons_of (s' := { s with lex := .commentDash acc }), run_cons_of (s' := { s with lex := .commentEnd acc }), fin]
      · simp [step]
      · simp [step]
    · intro _
      rw [if_pos rfl]
      show run _ ['-', '-', '>'] = _
      rw [run_cons_of (s' := { s with lex := .commentEnd acc }), run_cons_of (s' := { s with lex := .commentEnd (acc ++ ['-']) }), fin]
      · simp [step]
      · simp [step]
  | cons c t ih =>
    simp only [List.all_cons, Bool.and_eq_true] at h1
    rw [List.cons_append, containsSub, Bool.or_eq_false_iff] at h2
    have hih := @ih
    constructor
    · by_cases e : c = '-'
      · subst e
        cases t with
        | nil => simp at h2
        | cons d t =>
          have hd : d ≠ '-' := by rintro rfl; simp at h2
          rw [List.cons_append, run_cons_of (s' := { s with lex := .commentDash acc }),
            ((ih (acc := acc) h1.2 h2.2).2 (by simpa using hd)), if_neg (by simp)]
          simp [step]
      · rw [List.cons_append, run_cons_of (s' := { s with lex := .comment (acc ++ [c]) }), (ih h1.2 h2.2).1]
        · simp
        · simp [step, okChar_iff.1 h1.1, e]
    · intro hc
      have e : c ≠ '-' := by simpa using hc
      rw [if_neg (by simp), List.cons_append, run_cons_of (s' := { s with lex := .comment (acc ++ ['-', c]) }),
        (ih h1.2 h2.2).1]
      · simp
      · simp [step, okChar_iff.1 h1.1, e]

theorem onComment_lex (s : St) (l : Lex) (t : Str) : onComment { s with lex := l } t = onComment s t := by
  unfold onComment; cases s with
  | mk a b c d e => cases b <;> rfl

theorem run_commentNode {s : St} {t : Str} (h : okComment t = true) (hl : s.lex = .data) :
    run s ("<!--".toList ++ t ++ "-->".toList) = onComment s t := by
  have e1 : "<!--".toList = ['<', '!', '-', '-'] := by decide +kernel
  have e2 : "-->".toList = ['-', '-', '>'] := by decide +kernel
  simp only [okComment, Bool.and_eq_true, Bool.not_eq_true'] at h
  obtain ⟨⟨⟨h1, h2⟩, h3⟩, h4⟩ := h
  rw [e1, e2]
  show run s ('<' :: '!' :: '-' :: '-' :: (t ++ ['-', '-', '>'])) = _
  rw [run_cons_of (s' := { s with lex := .tagOpen }), run_cons_of (s' := { s with lex := .markup [] }),
    run_cons_of (s' := { s with lex := .markup ['-'] }), run_cons_of (s' := { s with lex := .commentStart })]
  · cases t with
    | nil =>
      show run _ ['-', '-', '>'] = _
      rw [run_cons_of (s' := { s with lex := .commentStartDash }), run_cons_of (s' := { s with lex := .commentEnd [] }), run_cons]
      · have : step { s with lex := .commentEnd [] } '>' = onComment { s with lex := .commentEnd [] } [] := by simp [step]
        rw [this, onComment_lex]
        cases onComment s [] <;> rfl
      · simp [step]
      · simp [step]
    | cons c t =>
      simp only [List.all_cons, Bool.and_eq_true] at h1
      rw [List.cons_append, containsSub, Bool.or_eq_false_iff] at h4
      have hc : c ≠ '>' := by rintro rfl; simp at h2
      by_cases e : c = '-'
      · subst e
        cases t with
        | nil => simp at h4
        | cons d t =>
          have hd : d ≠ '-' := by rintro rfl; simp at h4
          have hd2 : d ≠ '>' := by rintro rfl; simp at h3
          have h5 := h4.2
          rw [List.cons_append, containsSub, Bool.or_eq_false_iff] at h5
          have h6 := h1.2
          simp only [List.all_cons, Bool.and_eq_true] at h6
          rw [List.cons_append, List.cons_append, run_cons_of (s' := { s with lex := .commentStartDash }),
            run_cons_of (s' := { s with lex := .comment ['-', d] }), (run_comment h6.2 h5.2).1, onComment_lex]
          · rfl
          · simp [step, okChar_iff.1 h6.1, hd, hd2]
          · simp [step]
      · rw [List.cons_append, run_cons_of (s' := { s with lex := .comment [c] }), (run_comment h1.2 h4.2).1, onComment_lex]
        · rfl
        · simp [step, okChar_iff.1 h1.1, e, hc]
  · simp [step, toLowerAscii]
  · simp [step, toLowerAscii]
  · simp [step]
  · simp [step, hl]

/-! ### Raw text -/

/-- Raw text that can be written: it does not contain the beginning of the end tag, in any letter case, and in a script
no `<!`. -/
def okRaw (k : RawKind) (tag s : Str) : Bool :=
  s.all okChar && !containsSub ('<' :: '/' :: tag) (s.map toLowerAscii) &&
    !(k == .script && containsSub ['<', '!'] s)

theorem run_rawBuf {s : St} {k : RawKind} {tag buf t : Str} (ht : t.all isAlpha = true) :
    run { s with lex := .rawEnd k tag buf } t = some { s with lex := .rawEnd k tag (buf ++ t) } := by
  induction t generalizing buf with
  | nil => simp [run_nil]
  | cons c t ih =>
    simp only [List.all_cons, Bool.and_eq_true] at ht
    rw [run_cons_of (s' := { s with lex := .rawEnd k tag (buf ++ [c]) }), ih ht.2]
    · simp
    · simp only [step]; rw [if_neg (alpha_step ht.1).1, if_pos ht.1]

/-- The rest of an end tag after `</`. -/
theorem run_rawClose {s : St} {k : RawKind} {tag : Str} (ht : tag.all isAlpha = true) (hu : tag.map toLowerAscii = tag) :
    run { s with lex := .rawEnd k tag [] } (tag ++ ['>']) = onEnd { s with lex := .rawEnd k tag tag } tag := by
  rw [run_append_of (run_rawBuf ht), List.nil_append, run_cons]
  have : step { s with lex := .rawEnd k tag tag } '>' = onEnd { s with lex := .rawEnd k tag tag } tag := by
    simp only [step]
    rw [if_neg (by decide), if_neg (by decide), if_pos hu, if_pos trivial]
  rw [this]
  cases onEnd { s with lex := .rawEnd k tag tag } tag <;> rfl

theorem onEnd_lex (s : St) (l : Lex) (tag : Str) : onEnd { s with lex := l } tag = onEnd s tag := by
  unfold onEnd; cases s with
  | mk a b c d e => cases b <;> rfl

/-- The state of the tokenizer in raw text when `p` has been read but not inserted yet. -/
inductive Pending (k : RawKind) (tag : Str) : Str → Lex → Prop
  | raw : Pending k tag [] (.raw k tag)
  | lt : Pending k tag ['<'] (.rawLt k tag)
  | buf (buf : Str) : buf.all isAlpha = true → Pending k tag ('<' :: '/' :: buf) (.rawEnd k tag buf)

theorem containsSub_tail {p s : Str} {c : Char} (h : containsSub p (c :: s) = false) : containsSub p s = false := by
  rw [containsSub, Bool.or_eq_false_iff] at h; exact h.2

theorem containsSub_drop {p s t : Str} (h : containsSub p (s ++ t) = false) : containsSub p t = false := by
  induction s with
  | nil => exact h
  | cons c s ih => exact ih (containsSub_tail h)

theorem containsSub_self (p t : Str) : containsSub p (p ++ t) = true := by
  cases h : p ++ t with
  | nil => simp at h; simp [containsSub, h.1]
  | cons c r =>
    rw [containsSub, ← h, Bool.or_eq_true]
    left
    simp

theorem rawChar_lex (s : St) (l : Lex) (k : RawKind) (tag : Str) (c : Char) :
    rawChar { s with lex := l } k tag c = rawChar s k tag c := by
  unfold rawChar
  rw [insertChar_with]

/-- One character of raw text after which nothing but perhaps a less-than sign is pending. -/
theorem rawChar_pending (s : St) {k : RawKind} (hk : k ≠ .rcdata) (tag : Str) (c : Char) :
    ∃ q l, Pending k tag q l ∧ (q = [] ∨ q = ['<']) ∧ ∃ u, [c] = u ++ q ∧
      rawChar s k tag c = { u.foldl insertChar s with lex := l } := by
  unfold rawChar
  by_cases h : c = '<'
  · rw [if_pos h]
    exact ⟨['<'], _, .lt, .inr rfl, [], by rw [h]; rfl, rfl⟩
  · rw [if_neg h, if_neg (fun h => hk h.2)]
    exact ⟨[], _, .raw, .inl rfl, [c], rfl, rfl⟩

theorem foldl_insertChar_with (t : Str) (s : St) (l : Lex) :
    t.foldl insertChar { s with lex := l } = { t.foldl insertChar s with lex := l } := by
  induction t generalizing s with
  | nil => rfl
  | cons c t ih => rw [List.foldl_cons, insertChar_with, ih, List.foldl_cons]

theorem run_raw {k : RawKind} (hk : k ≠ .rcdata) {tag : Str} (ht : tag.all isAlpha = true)
    (hu : tag.map toLowerAscii = tag) {t : Str} : ∀ {s : St} {p : Str} {l : Lex}, Pending k tag p l →
    t.all okChar = true → containsSub ('<' :: '/' :: tag) ((p ++ t).map toLowerAscii) = false →
    (k = .script → containsSub ['<', '!'] (p ++ t) = false) →
    run { s with lex := l } (t ++ ('<' :: '/' :: (tag ++ ['>']))) = onEnd ((p ++ t).foldl insertChar s) tag := by
  -- after a state that emits what was pending
  have lower : ∀ a b : Str, (a ++ b).map toLowerAscii = a.map toLowerAscii ++ b.map toLowerAscii := by simp
  induction t with
  | nil =>
    intro s p l hp _ hc _
    -- from the state with a pending less-than sign
    have lt : ∀ s : St, run { s with lex := .rawLt k tag } ('/' :: (tag ++ ['>'])) = onEnd s tag := by
      intro s
      rw [run_cons_of (s' := { s with lex := .rawEnd k tag [] }), run_rawClose ht hu, onEnd_lex]
      simp [step]
    have emit : ∀ s : St, rawChar s k tag '<' = { s with lex := .rawLt k tag } := fun s => by simp [rawChar]
    rw [List.nil_append, List.append_nil]
    cases hp with
    | raw =>
      rw [run_cons_of (s' := { s with lex := .rawLt k tag }), lt]
      · rfl
      · simp [step, rawChar]
    | lt =>
      rw [run_cons_of (s' := { insertChar s '<' with lex := .rawLt k tag }), lt]
      · rfl
      · simp only [step]
        rw [if_neg (by decide), if_neg (by decide), if_neg (by simp), emit, insertChar_with]
    | buf b hb =>
      have hne : b.map toLowerAscii ≠ tag := by
        intro e
        have := containsSub_self ('<' :: '/' :: tag) []
        rw [List.append_nil] at hc this
        simp only [List.map_cons, e] at hc
        rw [show toLowerAscii '<' = '<' by decide, show toLowerAscii '/' = '/' by decide] at hc
        rw [this] at hc; cases hc
      rw [run_cons_of (s' := { ('<' :: '/' :: b).foldl insertChar s with lex := .rawLt k tag }), lt]
      simp only [step]
      rw [if_neg (by decide), if_neg (by decide), if_neg hne, emit, foldl_insertChar_with]
  | cons c t ih =>
    intro s p l hp hok hc hs
    simp only [List.all_cons, Bool.and_eq_true] at hok
    have hc0 := okChar_iff.1 hok.1
    -- everything pending is inserted, then `c` is taken as raw text
    have flush : ∀ (p : Str) (s : St), containsSub ('<' :: '/' :: tag) ((p ++ c :: t).map toLowerAscii) = false →
        (k = .script → containsSub ['<', '!'] (p ++ c :: t) = false) →
        run (rawChar (p.foldl insertChar s) k tag c) (t ++ ('<' :: '/' :: (tag ++ ['>']))) =
          onEnd ((p ++ c :: t).foldl insertChar s) tag := by
      intro p s hc hs
      obtain ⟨q, l', hq, hq', u, hu', e⟩ := rawChar_pending (p.foldl insertChar s) hk tag c
      have hct : c :: t = u ++ (q ++ t) := by
        rw [← List.append_assoc, ← hu']; rfl
      rw [hct] at hc hs
      rw [← List.append_assoc] at hc
      rw [e, ih hq hok.2 (by rw [lower] at hc; exact containsSub_drop hc)
        (fun h => containsSub_drop (s := p ++ u) (by rw [List.append_assoc]; exact hs h)), hct,
        List.foldl_append (l := p), List.foldl_append (l := u)]
    rw [List.cons_append]
    cases hp with
    | raw =>
      rw [run_cons_of (s' := rawChar { s with lex := .raw k tag } k tag c)]
      · have e : rawChar { s with lex := .raw k tag } k tag c = rawChar s k tag c := by
          unfold rawChar
          rw [insertChar_with]
        rw [e]
        exact flush [] s hc hs
      · simp only [step]; rw [if_neg hc0]
    | lt =>
      by_cases e1 : c = '/'
      · subst e1
        rw [run_cons_of (s' := { s with lex := .rawEnd k tag [] }), ih (.buf [] rfl) hok.2 hc hs]
        · rfl
        · simp [step]
      · have e2 : ¬ (c = '!' ∧ k = .script) := by
          rintro ⟨rfl, rfl⟩
          have := hs rfl
          simp [containsSub] at this
        rw [run_cons_of (s' := rawChar (['<'].foldl insertChar s) k tag c)]
        · exact flush ['<'] s hc hs
        · simp only [step]; rw [if_neg hc0, if_neg e1, if_neg e2]
          congr 1
          show rawChar (insertChar { s with lex := .rawLt k tag } '<') k tag c = rawChar (insertChar s '<') k tag c
          rw [insertChar_with, rawChar_lex]
    | buf b hb =>
      by_cases ha : isAlpha c = true
      · rw [run_cons_of (s' := { s with lex := .rawEnd k tag (b ++ [c]) }),
          ih (.buf (b ++ [c]) (by simp [hb, ha])) hok.2 (by simpa using hc) (fun h => by simpa using hs h)]
        · simp
        · simp only [step]; rw [if_neg hc0, if_pos ha]
      · have hne : b.map toLowerAscii ≠ tag := by
          intro e
          have := containsSub_self ('<' :: '/' :: tag) ((c :: t).map toLowerAscii)
          rw [lower] at hc
          simp only [List.map_cons, e] at hc this
          rw [show toLowerAscii '<' = '<' by decide, show toLowerAscii '/' = '/' by decide] at hc
          rw [this] at hc; cases hc
        rw [run_cons_of (s' := rawChar (('<' :: '/' :: b).foldl insertChar s) k tag c)]
        · exact flush ('<' :: '/' :: b) s hc hs
        · simp only [step]; rw [if_neg hc0, if_neg ha, if_neg hne]
          congr 1
          rw [foldl_insertChar_with, rawChar_lex]

end Reader
end Hotmeal
