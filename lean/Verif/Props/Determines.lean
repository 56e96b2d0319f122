import Verif.Props.Serialize
import Verif.Props.RoundTrip

set_option autoImplicit false
set_option linter.unusedSectionVars false

/-!
# C23: serialized HTML determines the tree

Two forests with plain names have the same serialized HTML exactly if they are equal up to what HTML
does not show: splitting of text, empty text nodes, content of void elements, and the namespace and prefix
of an attribute beyond its written name.
-/

namespace Hotmeal

/-! ## Specification -/

/-- A tree in normal form; attributes are pairs of written name and value. -/
inductive NHtml
  | element (tag : Str) (attrs : List (Str × Str)) (children : List NHtml)
  | text (s : Str)
  | comment (s : Str)
  deriving Repr, Inhabited

namespace NHtml

/-- Put text in front of a forest in normal form. -/
def consText (s : Str) (l : List NHtml) : List NHtml :=
  if s = [] then l
  else match l with
    | .text t :: r => .text (s ++ t) :: r
    | l => .text s :: l

end NHtml

/-- Attributes by written name. -/
def writtenAttrs (as : Attrs) : List (Str × Str) := as.map fun kv => (serName kv.1, kv.2)

mutual
/-- The normal form of a tree, put in front of a forest in normal form. -/
def Html.normCons : Html → List NHtml → List NHtml
  | .document, l => l
  | .text s, l => NHtml.consText s l
  | .comment s, l => .comment s :: l
  | .element tag attrs cs, l =>
    .element tag (writtenAttrs attrs) (if isVoid tag then [] else Html.normL cs) :: l
/-- The normal form of a forest: adjacent text is joined, empty text and the content of void
elements are left out. -/
def Html.normL : List Html → List NHtml
  | [] => []
  | c :: cs => Html.normCons c (Html.normL cs)
end

/-- A tag name that can be written: it is not empty, does not begin with `/` or `!`, and contains no
space and no `>`. -/
def PlainTag (t : Str) : Prop :=
  (∃ c r, t = c :: r ∧ c ≠ '/' ∧ c ≠ '!') ∧ ∀ c ∈ t, c ≠ ' ' ∧ c ≠ '>'

/-- Attributes whose written names contain no `=`. -/
def PlainAttrs (as : Attrs) : Prop := ∀ kv ∈ as, '=' ∉ serName kv.1

/-- The text of a list of text nodes. -/
def rawText : List Html → Str
  | [] => []
  | .text s :: cs => s ++ rawText cs
  | _ :: cs => rawText cs

/-- Is this a text node? -/
def Html.IsText : Html → Prop
  | .text _ => True
  | _ => False

mutual
/-- Trees whose HTML can be read back: plain names, no `-->` inside a comment, and below
`script`, `style` and `noscript` only text without `</`. -/
def Html.Plain : Html → Prop
  | .document => False
  | .text _ => True
  | .comment s => ¬ "-->".toList <:+: s
  | .element tag attrs cs => PlainTag tag ∧ PlainAttrs attrs ∧
      (isVoid tag = true ∨
        (isRawText tag = true ∧ (∀ c ∈ cs, c.IsText) ∧ ¬ "</".toList <:+: rawText cs) ∨
        (isRawText tag = false ∧ Html.PlainL cs))
/-- Every tree of the list is plain. -/
def Html.PlainL : List Html → Prop
  | [] => True
  | c :: cs => c.Plain ∧ Html.PlainL cs
end

/-! ## Serialization of the normal form -/

/-- Attributes by written name, serialized. -/
def nserAttrs (as : List (Str × Str)) : Str :=
  as.flatMap fun kv => ' ' :: (kv.1 ++ '=' :: '"' :: (escAttr kv.2 ++ ['"']))

mutual
/-- Serialization of a tree in normal form. -/
def NHtml.ser (raw : Bool) : NHtml → Str
  | .text s => if raw then s else escText s
  | .comment s => "<!--".toList ++ s ++ "-->".toList
  | .element tag attrs cs =>
    '<' :: tag ++ nserAttrs attrs ++ ['>'] ++
      (if isVoid tag then [] else NHtml.serL (isRawText tag) cs ++ "</".toList ++ tag ++ ['>'])
/-- Serialization of a forest in normal form. -/
def NHtml.serL (raw : Bool) : List NHtml → Str
  | [] => []
  | c :: cs => c.ser raw ++ NHtml.serL raw cs
end

theorem escText_append (s t : Str) : escText (s ++ t) = escText s ++ escText t :=
  List.flatMap_append

theorem nserAttrs_written (as : Attrs) : nserAttrs (writtenAttrs as) = serAttrs as := by
  unfold nserAttrs writtenAttrs serAttrs
  rw [List.flatMap_map]

theorem NHtml.serL_consText (raw : Bool) (s : Str) (l : List NHtml) :
    NHtml.serL raw (NHtml.consText s l) = (if raw then s else escText s) ++ NHtml.serL raw l := by
  unfold NHtml.consText
  split
  · next h => subst h; cases raw <;> rfl
  · split
    · simp only [NHtml.serL, NHtml.ser]
      cases raw <;> simp [escText_append]
    · simp only [NHtml.serL, NHtml.ser]

mutual
theorem Html.serL_normCons (raw : Bool) (t : Html) (l : List NHtml) :
    NHtml.serL raw (Html.normCons t l) = t.ser raw ++ NHtml.serL raw l := by
  cases t with
  | document => rfl
  | text s => exact NHtml.serL_consText raw s l
  | comment s => rfl
  | element tag attrs cs =>
    simp only [Html.normCons, NHtml.serL, NHtml.ser, Html.ser, nserAttrs_written]
    cases hv : isVoid tag with
    | true => simp
    | false => simp [Html.serL_normL (isRawText tag) cs]
theorem Html.serL_normL (raw : Bool) (cs : List Html) :
    NHtml.serL raw (Html.normL cs) = Html.serL raw cs := by
  cases cs with
  | nil => rfl
  | cons c cs =>
    simp only [Html.normL, Html.serL]
    rw [Html.serL_normCons raw c, Html.serL_normL raw cs]
end

/-! ## Reading normal forms back -/

/-- The forest does not begin with text. -/
def NHtml.NoText : List NHtml → Prop
  | .text _ :: _ => False
  | _ => True

mutual
/-- Normal forms of plain trees. -/
def NHtml.Ok : NHtml → Prop
  | .text s => s ≠ []
  | .comment s => ¬ "-->".toList <:+: s
  | .element tag attrs cs => PlainTag tag ∧ (∀ kv ∈ attrs, '=' ∉ kv.1) ∧
      ((isVoid tag = true ∧ cs = []) ∨
        (isVoid tag = false ∧ isRawText tag = true ∧
          (cs = [] ∨ ∃ s, s ≠ [] ∧ cs = [.text s] ∧ ¬ "</".toList <:+: s)) ∨
        (isVoid tag = false ∧ isRawText tag = false ∧ NHtml.OkL cs))
/-- Normal forms of plain forests. -/
def NHtml.OkL : List NHtml → Prop
  | [] => True
  | c :: cs => c.Ok ∧ NHtml.OkL cs ∧ (∀ s, c = .text s → NHtml.NoText cs)
end

theorem NHtml.okL_consText {s : Str} {l : List NHtml} (h : NHtml.OkL l) :
    NHtml.OkL (NHtml.consText s l) := by
  unfold NHtml.consText
  split
  · exact h
  · next hs =>
    split
    · next t r =>
      simp only [NHtml.OkL, NHtml.Ok] at h ⊢
      refine ⟨by simp [hs], h.2.1, fun _ _ => h.2.2 t rfl⟩
    · next h' =>
      simp only [NHtml.OkL, NHtml.Ok]
      refine ⟨hs, h, fun _ _ => ?_⟩
      unfold NHtml.NoText
      split
      · next t r => exact h' t r rfl
      · trivial

/-- The normal form of text nodes. -/
theorem Html.normL_text {cs : List Html} (h : ∀ c ∈ cs, c.IsText) :
    Html.normL cs = if rawText cs = [] then [] else [.text (rawText cs)] := by
  induction cs with
  | nil => simp [Html.normL, rawText]
  | cons c cs ih =>
    have hc := h c (List.mem_cons_self ..)
    cases c with
    | text s =>
      simp only [Html.normL, Html.normCons, rawText, ih (fun d hd => h d (List.mem_cons_of_mem _ hd))]
      unfold NHtml.consText
      by_cases hs : s = []
      · subst hs; by_cases hr : rawText cs = [] <;> simp [hr]
      · by_cases hr : rawText cs = []
        · simp [hs, hr]
        · simp [hs, hr]
    | _ => exact hc.elim

mutual
theorem Html.okL_normCons {t : Html} (h : t.Plain) {l : List NHtml} (hl : NHtml.OkL l) :
    NHtml.OkL (Html.normCons t l) := by
  cases t with
  | document => exact hl
  | text s => exact NHtml.okL_consText hl
  | comment s =>
    simp only [Html.normCons, NHtml.OkL, NHtml.Ok]
    exact ⟨h, hl, fun _ e => by cases e⟩
  | element tag attrs cs =>
    simp only [Html.Plain] at h
    obtain ⟨h1, h2, h3⟩ := h
    simp only [Html.normCons, NHtml.OkL, NHtml.Ok]
    refine ⟨⟨h1, ?_, ?_⟩, hl, fun _ e => by cases e⟩
    · intro kv hk
      obtain ⟨kv', hk', rfl⟩ := List.mem_map.1 hk
      exact h2 kv' hk'
    · cases hv : isVoid tag with
      | true => left; simp
      | false =>
        right
        rcases h3 with h3 | ⟨h3, h4, h5⟩ | ⟨h3, h4⟩
        · rw [hv] at h3; cases h3
        · left
          refine ⟨rfl, h3, ?_⟩
          simp only [Bool.false_eq_true, if_false, Html.normL_text h4]
          by_cases hr : rawText cs = []
          · left; simp [hr]
          · right; exact ⟨rawText cs, hr, by simp [hr], h5⟩
        · right
          exact ⟨rfl, h3, by simpa using Html.okL_normL h4⟩
theorem Html.okL_normL {cs : List Html} (h : Html.PlainL cs) : NHtml.OkL (Html.normL cs) := by
  cases cs with
  | nil => trivial
  | cons c cs =>
    simp only [Html.PlainL] at h
    exact Html.okL_normCons h.1 (Html.okL_normL h.2)
end

/-- Split two equal strings at the first character that fails `p`. -/
theorem split_at {γ : Type} (p : γ → Prop) {u u' r r' : List γ} (hu : ∀ c ∈ u, p c)
    (hu' : ∀ c ∈ u', p c) (hr : ∀ c ∈ r.head?, ¬ p c) (hr' : ∀ c ∈ r'.head?, ¬ p c)
    (h : u ++ r = u' ++ r') : u = u' ∧ r = r' := by
  induction u generalizing u' with
  | nil =>
    cases u' with
    | nil => exact ⟨rfl, h⟩
    | cons x u' =>
      simp only [List.nil_append, List.cons_append] at h
      subst h
      exact absurd (hu' x (List.mem_cons_self ..)) (hr x rfl)
  | cons x u ih =>
    cases u' with
    | nil =>
      simp only [List.nil_append, List.cons_append] at h
      subst h
      exact absurd (hu x (List.mem_cons_self ..)) (hr' x rfl)
    | cons y u' =>
      simp only [List.cons_append, List.cons.injEq] at h
      obtain ⟨e1, e2⟩ := ih (fun c hc => hu c (List.mem_cons_of_mem _ hc))
        (fun c hc => hu' c (List.mem_cons_of_mem _ hc)) h.2
      exact ⟨by rw [h.1, e1], e2⟩

theorem escText_inj {s t : Str} (h : escText s = escText t) : s = t := by
  rw [← C20_text_round_trip s, h, C20_text_round_trip]

theorem escAttr_inj {s t : Str} (h : escAttr s = escAttr t) : s = t := by
  rw [← C21_attr_round_trip s, h, C21_attr_round_trip]

/-- Attributes are determined by their HTML. -/
theorem nserAttrs_inj {as bs : List (Str × Str)} (ha : ∀ kv ∈ as, '=' ∉ kv.1)
    (hb : ∀ kv ∈ bs, '=' ∉ kv.1) {r r' : Str}
    (h : nserAttrs as ++ '>' :: r = nserAttrs bs ++ '>' :: r') : as = bs ∧ r = r' := by
  induction as generalizing bs with
  | nil =>
    cases bs with
    | nil => simpa [nserAttrs] using h
    | cons b bs => simp [nserAttrs] at h
  | cons a as ih =>
    cases bs with
    | nil => simp [nserAttrs] at h
    | cons b bs =>
      obtain ⟨k, v⟩ := a
      obtain ⟨k', v'⟩ := b
      have ka := ha (k, v) (List.mem_cons_self ..)
      have kb := hb (k', v') (List.mem_cons_self ..)
      simp only [nserAttrs, List.flatMap_cons, List.cons_append, List.append_assoc,
        List.cons.injEq, true_and] at h
      obtain ⟨e1, e2⟩ := split_at (· ≠ '=') (fun c hc e => ka (e ▸ hc)) (fun c hc e => kb (e ▸ hc))
        (by simp) (by simp) h
      simp only [List.cons.injEq, true_and] at e2
      obtain ⟨e3, e4⟩ := split_at (· ≠ '"') (fun c hc => (C21_no_special v c hc).1)
        (fun c hc => (C21_no_special v' c hc).1) (by simp) (by simp) e2
      simp only [List.nil_append, List.cons.injEq, true_and] at e4
      obtain ⟨e5, e6⟩ := ih (fun kv hk => ha kv (List.mem_cons_of_mem _ hk))
        (fun kv hk => hb kv (List.mem_cons_of_mem _ hk)) e4
      have e1 : k = k' := e1
      exact ⟨by rw [e1, escAttr_inj e3, e5], e6⟩

/-- Split at the first `-->`. -/
theorem split_comment {s t r r' : Str} (hs : ¬ "-->".toList <:+: s) (ht : ¬ "-->".toList <:+: t)
    (h : s ++ "-->".toList ++ r = t ++ "-->".toList ++ r') : s = t ∧ r = r' := by
  have key : ∀ {s t r r' : Str}, ¬ "-->".toList <:+: t → s.length ≤ t.length →
      s ++ "-->".toList ++ r = t ++ "-->".toList ++ r' → s = t := by
    intro s t r r' ht hl h
    rw [List.append_assoc, List.append_assoc] at h
    rcases List.append_eq_append_iff.1 h with ⟨w, h1, h2⟩ | ⟨w, h1, h2⟩
    · -- `t = s ++ w`, `"-->" ++ r = w ++ "-->" ++ r'`
      match w, h1, h2 with
      | [], h1, _ => simpa using h1.symm
      | [a], _, h2 => simp at h2
      | [a, b], _, h2 => simp at h2
      | a :: b :: c :: w, h1, h2 =>
        simp at h2
        obtain ⟨rfl, rfl, rfl, _⟩ := h2
        exact (ht ⟨s, w, by rw [h1]; simp⟩).elim
    · have : w = [] := by
        apply List.eq_nil_of_length_eq_zero
        have := congrArg List.length h1
        simp at this; omega
      simpa [this] using h1
  have e : s = t := by
    rcases Nat.le_total s.length t.length with hl | hl
    · exact key ht hl h
    · exact (key hs hl h.symm).symm
  subst e
  exact ⟨rfl, by simpa using h⟩

/-- Split at the first `</`. -/
theorem split_close {s t r r' : Str} (hs : ¬ "</".toList <:+: s) (ht : ¬ "</".toList <:+: t)
    (h : s ++ "</".toList ++ r = t ++ "</".toList ++ r') : s = t ∧ r = r' := by
  have key : ∀ {s t r r' : Str}, ¬ "</".toList <:+: t → s.length ≤ t.length →
      s ++ "</".toList ++ r = t ++ "</".toList ++ r' → s = t := by
    intro s t r r' ht hl h
    rw [List.append_assoc, List.append_assoc] at h
    rcases List.append_eq_append_iff.1 h with ⟨w, h1, h2⟩ | ⟨w, h1, h2⟩
    · match w, h1, h2 with
      | [], h1, _ => simpa using h1.symm
      | [a], _, h2 => simp at h2
      | a :: b :: w, h1, h2 =>
        simp at h2
        obtain ⟨rfl, rfl, _⟩ := h2
        exact (ht ⟨s, w, by rw [h1]; simp⟩).elim
    · have : w = [] := by
        apply List.eq_nil_of_length_eq_zero
        have := congrArg List.length h1
        simp at this; omega
      simpa [this] using h1
  have e : s = t := by
    rcases Nat.le_total s.length t.length with hl | hl
    · exact key ht hl h
    · exact (key hs hl h.symm).symm
  subst e
  exact ⟨rfl, by simpa using h⟩

/-- What may follow a forest: nothing, or an end tag. -/
def EndOk (r : Str) : Prop := r = [] ∨ ∃ r', r = '<' :: '/' :: r'

theorem escText_head {s : Str} (h : s ≠ []) : ∃ c r, escText s = c :: r ∧ c ≠ '<' := by
  cases e : escText s with
  | nil =>
    rw [← escText_nil] at e
    exact absurd (escText_inj e) h
  | cons c r => exact ⟨c, r, rfl, fun hc => C20_no_tag s (by rw [e, hc]; simp)⟩

/-- What follows text: nothing, or `<`. -/
theorem noText_head {fs : List NHtml} {r : Str} (hr : EndOk r) (h : NHtml.NoText fs) :
    ∀ c ∈ (NHtml.serL false fs ++ r).head?, ¬ c ≠ '<' := by
  cases fs with
  | nil =>
    rcases hr with rfl | ⟨r', rfl⟩ <;> simp [NHtml.serL]
  | cons f fs => cases f with
    | text s => exact h.elim
    | comment s => simp [NHtml.serL, NHtml.ser]
    | element tag attrs cs => simp [NHtml.serL, NHtml.ser]

/-- A non-empty forest does not look like its end. -/
theorem not_end {f : NHtml} {fs : List NHtml} {r r' : Str} (hf : f.Ok) (hr : EndOk r)
    (h : NHtml.serL false (f :: fs) ++ r' = r) : False := by
  cases f with
  | text s =>
    obtain ⟨c, u, e, hc⟩ := escText_head (s := s) hf
    simp only [NHtml.serL, NHtml.ser, Bool.false_eq_true, if_false, e, List.cons_append] at h
    rcases hr with rfl | ⟨r'', rfl⟩
    · cases h
    · simp only [List.cons.injEq] at h; exact hc h.1
  | comment s =>
    rcases hr with rfl | ⟨r'', rfl⟩ <;> simp [NHtml.serL, NHtml.ser] at h
  | element tag attrs cs =>
    simp only [NHtml.Ok] at hf
    obtain ⟨⟨⟨c, u, rfl, h1, _⟩, _⟩, _⟩ := hf
    rcases hr with rfl | ⟨r'', rfl⟩
    · simp [NHtml.serL, NHtml.ser] at h
    · simp [NHtml.serL, NHtml.ser] at h
      exact h1 h.1

theorem nserAttrs_head (as : List (Str × Str)) (r : Str) :
    ∀ c ∈ (nserAttrs as ++ '>' :: r).head?, ¬ (c ≠ ' ' ∧ c ≠ '>') := by
  cases as <;> simp [nserAttrs]

/-- The text of the content of a raw text element. -/
theorem raw_content {cs : List NHtml}
    (h : cs = [] ∨ ∃ s, s ≠ [] ∧ cs = [.text s] ∧ ¬ "</".toList <:+: s) :
    ∃ s, NHtml.serL true cs = s ∧ ¬ "</".toList <:+: s ∧ cs = if s = [] then [] else [.text s] := by
  rcases h with rfl | ⟨s, h1, rfl, h2⟩
  · refine ⟨[], rfl, ?_, rfl⟩
    rintro ⟨u, v, e⟩
    simp at e
  · exact ⟨s, by simp [NHtml.serL, NHtml.ser], h2, by simp [h1]⟩

/-- An element is determined by its HTML, if its content is. -/
theorem NHtml.elem_inj (tag : Str) (attrs : List (Str × Str)) (cs : List NHtml) {tag' : Str}
    {attrs' : List (Str × Str)} {cs' : List NHtml} {r r' : Str}
    (ih : ∀ {r r' : Str}, NHtml.OkL cs → NHtml.OkL cs' → EndOk r → EndOk r' →
      NHtml.serL false cs ++ r = NHtml.serL false cs' ++ r' → cs = cs' ∧ r = r')
    (h1 : (NHtml.element tag attrs cs).Ok) (h2 : (NHtml.element tag' attrs' cs').Ok)
    (h : (NHtml.element tag attrs cs).ser false ++ r = (NHtml.element tag' attrs' cs').ser false ++ r') :
    NHtml.element tag attrs cs = NHtml.element tag' attrs' cs' ∧ r = r' := by
  simp only [NHtml.Ok] at h1 h2
  obtain ⟨t1, a1, c1⟩ := h1
  obtain ⟨t2, a2, c2⟩ := h2
  simp only [NHtml.ser, List.cons_append, List.append_assoc, List.cons.injEq, true_and,
    List.nil_append] at h
  obtain ⟨e1, e2⟩ := split_at (fun c => c ≠ ' ' ∧ c ≠ '>') t1.2 t2.2 (nserAttrs_head _ _)
    (nserAttrs_head _ _) h
  obtain ⟨e3, e4⟩ := nserAttrs_inj a1 a2 e2
  subst e1 e3
  cases hv : isVoid tag with
  | true =>
    simp only [hv, if_true, List.nil_append, true_and, Bool.true_eq_false, false_and, or_false]
      at e4 c1 c2
    exact ⟨by rw [c1, c2], e4⟩
  | false =>
    simp only [hv, Bool.false_eq_true, if_false, List.append_assoc, false_and, false_or, true_and]
      at e4 c1 c2
    cases hraw : isRawText tag with
    | true =>
      simp only [hraw, true_and, Bool.true_eq_false, false_and, or_false] at e4 c1 c2
      obtain ⟨s, s1, s2, s3⟩ := raw_content c1
      obtain ⟨t, u1, u2, u3⟩ := raw_content c2
      rw [s1, u1, ← List.append_assoc, ← List.append_assoc t] at e4
      obtain ⟨d1, d2⟩ := split_close s2 u2 e4
      exact ⟨by rw [s3, u3, d1], by simpa using d2⟩
    | false =>
      simp only [hraw, true_and, Bool.false_eq_true, false_and, false_or] at e4 c1 c2
      obtain ⟨d1, d2⟩ := ih c1 c2 (Or.inr ⟨_, rfl⟩) (Or.inr ⟨_, rfl⟩) e4
      exact ⟨by rw [d1], by simpa using d2⟩

/-- A forest in normal form is determined by its HTML. -/
theorem NHtml.serL_inj (fs gs : List NHtml) {r r' : Str} (hf : NHtml.OkL fs) (hg : NHtml.OkL gs)
    (hr : EndOk r) (hr' : EndOk r') (h : NHtml.serL false fs ++ r = NHtml.serL false gs ++ r') :
    fs = gs ∧ r = r' := by
  match fs, gs with
  | [], [] => exact ⟨rfl, h⟩
  | [], g :: gs =>
    simp only [NHtml.OkL] at hg
    exact (not_end hg.1 hr (h.symm.trans (by simp [NHtml.serL]))).elim
  | f :: fs, [] =>
    simp only [NHtml.OkL] at hf
    exact (not_end hf.1 hr' (h.trans (by simp [NHtml.serL]))).elim
  | .text s :: fs, .text t :: gs =>
    simp only [NHtml.OkL] at hf hg
    obtain ⟨f1, f2, f3⟩ := hf
    obtain ⟨g1, g2, g3⟩ := hg
    simp only [NHtml.serL, List.append_assoc] at h
    simp only [NHtml.ser, Bool.false_eq_true, if_false] at h
    obtain ⟨e1, e2⟩ := split_at (· ≠ '<') (fun c hc e => C20_no_tag s (e ▸ hc))
      (fun c hc e => C20_no_tag t (e ▸ hc)) (noText_head hr (f3 s rfl))
      (noText_head hr' (g3 t rfl)) h
    obtain ⟨e3, e4⟩ := NHtml.serL_inj fs gs f2 g2 hr hr' e2
    exact ⟨by rw [escText_inj e1, e3], e4⟩
  | .comment s :: fs, .comment t :: gs =>
    simp only [NHtml.OkL] at hf hg
    simp only [NHtml.serL, List.append_assoc] at h
    simp only [NHtml.ser, List.append_assoc, List.append_cancel_left_eq] at h
    rw [← List.append_assoc s, ← List.append_assoc t] at h
    obtain ⟨e1, e2⟩ := split_comment hf.1 hg.1 h
    obtain ⟨e3, e4⟩ := NHtml.serL_inj fs gs hf.2.1 hg.2.1 hr hr' e2
    exact ⟨by rw [e1, e3], e4⟩
  | .element tag attrs cs :: fs, .element tag' attrs' cs' :: gs =>
    simp only [NHtml.OkL] at hf hg
    simp only [NHtml.serL, List.append_assoc] at h
    obtain ⟨e1, e2⟩ := NHtml.elem_inj tag attrs cs
      (fun a b c d e => NHtml.serL_inj cs cs' a b c d e) hf.1 hg.1 h
    obtain ⟨e3, e4⟩ := NHtml.serL_inj fs gs hf.2.1 hg.2.1 hr hr' e2
    exact ⟨by rw [e1, e3], e4⟩
  | .text s :: fs, .comment t :: gs =>
    simp only [NHtml.OkL] at hf
    obtain ⟨c, u, e, hc⟩ := escText_head (s := s) hf.1
    simp [NHtml.serL, NHtml.ser, e] at h
    exact (hc h.1).elim
  | .text s :: fs, .element tag' attrs' cs' :: gs =>
    simp only [NHtml.OkL] at hf
    obtain ⟨c, u, e, hc⟩ := escText_head (s := s) hf.1
    simp [NHtml.serL, NHtml.ser, e] at h
    exact (hc h.1).elim
  | .comment s :: fs, .text t :: gs =>
    simp only [NHtml.OkL] at hg
    obtain ⟨c, u, e, hc⟩ := escText_head (s := t) hg.1
    simp [NHtml.serL, NHtml.ser, e] at h
    exact (hc h.1.symm).elim
  | .element tag attrs cs :: fs, .text t :: gs =>
    simp only [NHtml.OkL] at hg
    obtain ⟨c, u, e, hc⟩ := escText_head (s := t) hg.1
    simp [NHtml.serL, NHtml.ser, e] at h
    exact (hc h.1.symm).elim
  | .comment s :: fs, .element tag' attrs' cs' :: gs =>
    simp only [NHtml.OkL, NHtml.Ok] at hg
    obtain ⟨⟨⟨⟨c, u, rfl, _, hc⟩, _⟩, _⟩, _⟩ := hg
    simp [NHtml.serL, NHtml.ser] at h
    exact (hc h.1.symm).elim
  | .element tag attrs cs :: fs, .comment t :: gs =>
    simp only [NHtml.OkL, NHtml.Ok] at hf
    obtain ⟨⟨⟨⟨c, u, rfl, _, hc⟩, _⟩, _⟩, _⟩ := hf
    simp [NHtml.serL, NHtml.ser] at h
    exact (hc h.1).elim
termination_by sizeOf fs

/-! ## C23 -/

/-- **C23.** Two plain forests have the same HTML exactly if they have the same normal form. -/
theorem C23_html_determines_forest {fs gs : List Html} (hf : Html.PlainL fs) (hg : Html.PlainL gs) :
    Html.serL false fs = Html.serL false gs ↔ Html.normL fs = Html.normL gs := by
  constructor
  · intro h
    rw [← Html.serL_normL, ← Html.serL_normL] at h
    exact (NHtml.serL_inj _ _ (Html.okL_normL hf) (Html.okL_normL hg) (Or.inl rfl) (Or.inl rfl)
      (by rw [h])).1
  · intro h
    rw [← Html.serL_normL, ← Html.serL_normL, h]

/-- **C23** for documents: two documents with plain bodies have the same body HTML exactly if their
bodies have the same normal form. -/
theorem C23_html_determines_body {D E : Document} (hD : Html.PlainL D.bodyForest)
    (hE : Html.PlainL E.bodyForest) :
    D.toBodyHtml = E.toBodyHtml ↔ Html.normL D.bodyForest = Html.normL E.bodyForest := by
  rw [toBodyHtml_eq, toBodyHtml_eq]
  exact C23_html_determines_forest hD hE

/-- A forest with an attribute, text that needs escaping, a comment, a void element and a script. -/
def plainDemo (x y : Str) : List Html :=
  [.element "p".toList [(⟨none, [], "class".toList⟩, "a\"b".toList)] [.text x, .text y, .comment "c".toList],
   .element "br".toList [] [], .element "script".toList [] [.text "1<2".toList], .text []]

/-- It meets the hypotheses. -/
example (x y : Str) : Html.PlainL (plainDemo x y) := by
  have h : ∀ t : Str, (∃ c r, t = c :: r ∧ c ≠ '/' ∧ c ≠ '!') → (∀ c ∈ t, c ≠ ' ' ∧ c ≠ '>') → PlainTag t :=
    fun _ h1 h2 => ⟨h1, h2⟩
  refine ⟨⟨h _ ⟨'p', [], rfl, by decide, by decide⟩ (by decide), ?_, .inr (.inr ⟨by decide, trivial, trivial,
    show ¬ "-->".toList <:+: "c".toList by decide, trivial⟩)⟩,
    ⟨h _ ⟨'b', ['r'], rfl, by decide, by decide⟩ (by decide), (fun _ h => by cases h), .inl (by decide)⟩,
    ⟨h _ ⟨'s', "cript".toList, rfl, by decide, by decide⟩ (by decide), (fun _ h => by cases h),
      .inr (.inl ⟨by decide, ?_, by decide⟩)⟩, trivial, trivial⟩
  · intro kv hk
    rw [List.mem_singleton.1 hk]
    decide
  · intro c hc
    rw [List.mem_singleton.1 hc]
    trivial

/-- Two splittings of the same text have the same HTML and the same normal form. -/
example : Html.serL false (plainDemo "a&".toList "b".toList) =
      Html.serL false (plainDemo "a".toList "&b".toList) ∧
    Html.serL false (plainDemo "a&".toList "b".toList) =
      "<p class=\"a&quot;b\">a&amp;b<!--c--></p><br><script>1<2</script>".toList := by
  decide +kernel

/-- Without the condition on comments two different forests may have the same HTML. -/
example : Html.serL false [.comment "a--><!--b".toList] =
    Html.serL false [.comment "a".toList, .comment "b".toList] := by
  decide +kernel

end Hotmeal
