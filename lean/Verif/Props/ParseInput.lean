import Verif.Props.Sink

set_option autoImplicit false

/-!
# C67: the text that the HTML parser reads
-/

namespace Hotmeal

/-- The start of a tag `<html` or `<body`, in any letter case, somewhere in the text. -/
def HasPageTag (s : Str) : Prop :=
  ∃ pre tag post, s = pre ++ tag ++ post ∧ (AnyCase tag "<html".toList ∨ AnyCase tag "<body".toList)

theorem containsSub_iff (pat s : Str) : containsSub pat s = true ↔ ∃ pre post, s = pre ++ pat ++ post := by
  induction s with
  | nil =>
    unfold containsSub
    rw [List.isEmpty_iff]
    constructor
    · rintro rfl; exact ⟨[], [], rfl⟩
    · rintro ⟨pre, post, h⟩
      have := congrArg List.length h
      simp only [List.length_nil, List.length_append] at this
      exact List.length_eq_zero_iff.1 (by omega)
  | cons c cs ih =>
    unfold containsSub
    rw [Bool.or_eq_true, ih, List.isPrefixOf_iff_prefix]
    constructor
    · rintro (⟨post, h⟩ | ⟨pre, post, rfl⟩)
      · exact ⟨[], post, h.symm⟩
      · exact ⟨c :: pre, post, rfl⟩
    · rintro ⟨pre, post, h⟩
      cases pre with
      | nil => exact .inl ⟨post, h.symm⟩
      | cons x xs =>
        injection h with _ h
        exact .inr ⟨xs, post, h⟩

theorem contains_lower_iff {kw : Str} (hkw : ∀ d ∈ kw, ¬ (65 ≤ d.toNat ∧ d.toNat ≤ 90)) (s : Str) :
    containsSub kw (s.map toLowerAscii) = true ↔ ∃ pre tag post, s = pre ++ tag ++ post ∧ AnyCase tag kw := by
  rw [containsSub_iff]
  constructor
  · rintro ⟨pre, post, h⟩
    rw [List.map_eq_append_iff] at h
    obtain ⟨l1, post', rfl, h, _⟩ := h
    rw [List.map_eq_append_iff] at h
    obtain ⟨pre', tag, rfl, _, h⟩ := h
    exact ⟨pre', tag, post', rfl, (anyCase_iff hkw tag).2 h⟩
  · rintro ⟨pre, tag, post, rfl, h⟩
    refine ⟨pre.map toLowerAscii, post.map toLowerAscii, ?_⟩
    rw [List.map_append, List.map_append, (anyCase_iff hkw tag).1 h]

theorem hasHtmlStructure_iff (s : Str) : hasHtmlStructure s = true ↔ HasPageTag s := by
  unfold hasHtmlStructure HasPageTag
  simp only [Bool.or_eq_true]
  rw [contains_lower_iff (by decide), contains_lower_iff (by decide)]
  constructor
  · rintro (⟨a, b, c, h1, h2⟩ | ⟨a, b, c, h1, h2⟩)
    · exact ⟨a, b, c, h1, .inl h2⟩
    · exact ⟨a, b, c, h1, .inr h2⟩
  · rintro ⟨a, b, c, h1, h2 | h2⟩
    · exact .inl ⟨a, b, c, h1, h2⟩
    · exact .inr ⟨a, b, c, h1, h2⟩

/-- **C67.** An input that starts with a doctype is read as it stands. Of the others, one with a tag `<html` or
`<body` gets a doctype in front, and one without is made the content of a body. -/
theorem C67_what_is_read (s : Str) :
    (StartsWithDoctype s → parseInput s = s) ∧
    (¬ StartsWithDoctype s → HasPageTag s → parseInput s = "<!DOCTYPE html>".toList ++ s) ∧
    (¬ StartsWithDoctype s → ¬ HasPageTag s →
      parseInput s = "<!DOCTYPE html><html><body>".toList ++ s ++ "</body></html>".toList) := by
  rw [← C32_doctype_detection, ← hasHtmlStructure_iff]
  unfold parseInput
  refine ⟨fun h => by rw [if_pos h], fun h h' => by rw [if_neg h, if_pos h'], fun h h' => by rw [if_neg h, if_neg h']⟩

/-- **C67.** No input is wrapped twice: what has been put together for one input is read as it stands. -/
theorem C67_read_once (s : Str) : parseInput (parseInput s) = parseInput s :=
  (C67_what_is_read _).1 (C32_input_kept s).2

/-- **C67.** Different inputs of the same form are read differently. -/
theorem C67_nothing_lost {s t : Str} (hs : StartsWithDoctype s ↔ StartsWithDoctype t) (ht : HasPageTag s ↔ HasPageTag t)
    (h : parseInput s = parseInput t) : s = t := by
  obtain ⟨s1, s2, s3⟩ := C67_what_is_read s
  obtain ⟨t1, t2, t3⟩ := C67_what_is_read t
  by_cases h1 : StartsWithDoctype s
  · rwa [s1 h1, t1 (hs.1 h1)] at h
  · have h1' := fun x => h1 (hs.2 x)
    by_cases h2 : HasPageTag s
    · rw [s2 h1 h2, t2 h1' (ht.1 h2)] at h
      exact List.append_cancel_left h
    · rw [s3 h1 h2, t3 h1' (fun x => h2 (ht.2 x))] at h
      exact List.append_cancel_left (List.append_cancel_right h)

/-- The three forms. -/
example : StartsWithDoctype "\n<!dOCTYPE html>".toList ∧
    (¬ StartsWithDoctype "<BODY>a".toList ∧ HasPageTag "<BODY>a".toList) ∧
    (¬ StartsWithDoctype "<p>a".toList ∧ ¬ HasPageTag "<p>a".toList) := by
  rw [← C32_doctype_detection, ← C32_doctype_detection, ← C32_doctype_detection, ← hasHtmlStructure_iff,
    ← hasHtmlStructure_iff]
  decide +kernel

/-- Two consequences. The tags are looked for anywhere, also in a comment; and an input that has a head but no `<html`
and no `<body` is put into the body, head and all. -/
theorem C67_surprising : parseInput "<!--<body>--><p>a".toList = "<!DOCTYPE html><!--<body>--><p>a".toList ∧
    parseInput "<head><title>a</title></head><p>b".toList =
      "<!DOCTYPE html><html><body><head><title>a</title></head><p>b</body></html>".toList := by
  decide +kernel

end Hotmeal
