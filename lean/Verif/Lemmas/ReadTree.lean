import Verif.Lemmas.Reader
import Verif.Spec.OfForest

set_option autoImplicit false
set_option linter.unusedSectionVars false

/-!
# How the reader takes the HTML of a tree
-/

namespace Hotmeal

open Reader

/-- Is the tree a text node? -/
def Html.isTextB : Html → Bool
  | .text _ => true
  | _ => false

/-- No two text nodes next to each other. -/
def Html.apartB : List Html → Bool
  | [] => true
  | [_] => true
  | a :: b :: cs => !(a.isTextB && b.isTextB) && Html.apartB (b :: cs)

/-- Does the first text begin with a line feed? -/
def Html.startsLf : List Html → Bool
  | .text s :: _ => s.head? == some '\n'
  | _ => false

/-- Elements with raw text for the reader in which the writer escapes text. -/
def Reader.escapedTags : List Str := ["iframe".toList, "noembed".toList]

/-- The content of an element that has text instead of nodes. -/
def Html.okRawKids (k : RawKind) (tag : Str) : List Html → Bool
  | [] => true
  | [.text s] => !s.isEmpty && !escapedTags.contains tag && (if k = .rcdata then s.all okChar else okRaw k tag s)
  | _ => false

mutual
/-- A tree that can be written and read below the open elements `stack`: names can be written, the elements may be
nested in this way (`fits`), texts are not empty, not next to each other and not between the parts of a table, void elements and `iframe` and `noembed`
are empty, other elements with raw text have one text at most, and no text is in a place where its first line feed
would be dropped. -/
def Html.readable (stack : List Str) : Html → Bool
  | .document => false
  | .text s => !s.isEmpty && s.all okChar && s.all (charFits stack)
  | .comment s => okComment s
  | .element tag attrs cs =>
    okTag tag && attrs.all okAttr && decide attrs.Unique && fits stack tag && !(dropsLf tag && startsLf cs) &&
      (if voidTags.contains tag then cs.isEmpty
       else match rawKind tag with
        | some k => okRawKids k tag cs
        | none => apartB cs && readableL (tag :: stack) cs)
/-- `readable` for every tree of a list. -/
def Html.readableL (stack : List Str) : List Html → Bool
  | [] => true
  | c :: cs => c.readable stack && readableL stack cs
end

mutual
/-- What the reader has to do for a tree. -/
def Html.evs : Html → List Ev
  | .document => []
  | .text s => s.map Ev.char
  | .comment s => [.comment s]
  | .element tag attrs cs => .open_ tag attrs :: (evsL cs ++ [.close])
/-- What the reader has to do for a list of trees. -/
def Html.evsL : List Html → List Ev
  | [] => []
  | c :: cs => c.evs ++ evsL cs
end

namespace Reader

theorem okAttrs_nodup {as : Attrs} (h : as.all okAttr = true) (hu : as.Unique) : (as.map fun kv => kv.1.loc).Nodup := by
  unfold Attrs.Unique at hu
  have : (as.map Prod.fst).Pairwise (fun p q => p.loc ≠ q.loc) := by
    refine (List.Pairwise.imp_of_mem ?_ hu)
    intro p q hp hq hne e
    obtain ⟨kv, h1, rfl⟩ := List.mem_map.1 hp
    obtain ⟨kw, h2, rfl⟩ := List.mem_map.1 hq
    have a1 := List.all_eq_true.1 h kv h1
    have a2 := List.all_eq_true.1 h kw h2
    simp only [okAttr, Bool.and_eq_true] at a1 a2
    obtain ⟨c, t, e1, _⟩ := okName_iff.1 a1.1
    obtain ⟨d, u, e2, _⟩ := okName_iff.1 a2.1
    rw [e1, e2] at e hne
    exact hne (by simpa using e)
  have h2 : (as.map fun kv => kv.1.loc) = (as.map Prod.fst).map QualName.loc := by simp
  rw [h2]
  exact List.pairwise_map.2 this

/-- The elements that are void for the writer are void for the reader. -/
theorem void_iff (tag : Str) : isVoid tag = voidTags.contains tag := rfl

/-- Elements that are never read inside of a body. -/
theorem fits_ne {stack : List Str} {tag : Str} (h : fits stack tag = true) :
    tag ≠ "noscript".toList ∧ tag ≠ "body".toList ∧ tag ≠ "html".toList := by
  unfold fits at h
  split at h
  · next kids e =>
    obtain ⟨p, _, e⟩ := Option.bind_eq_some_iff.1 e
    unfold tableKids at e
    split at e
    · cases e; refine ⟨?_, ?_, ?_⟩ <;> (rintro rfl; revert h; decide +kernel)
    · split at e
      · cases e; refine ⟨?_, ?_, ?_⟩ <;> (rintro rfl; revert h; decide +kernel)
      · split at e
        · cases e; refine ⟨?_, ?_, ?_⟩ <;> (rintro rfl; revert h; decide +kernel)
        · split at e
          · cases e; refine ⟨?_, ?_, ?_⟩ <;> (rintro rfl; revert h; decide +kernel)
          · cases e
  · simp only [fitsBody, Bool.and_eq_true, Bool.not_eq_true'] at h
    have := h.1.1.1.1.1.1
    refine ⟨?_, ?_, ?_⟩ <;> (rintro rfl; revert this; decide +kernel)

/-- The elements that are read have raw text for the writer if they have raw text without references for the
reader. -/
theorem raw_iff {stack : List Str} {tag : Str} (h : fits stack tag = true) (he : escapedTags.contains tag = false) :
    isRawText tag = true ↔ rawKind tag = some .script ∨ rawKind tag = some .rawtext := by
  have hf : tag ≠ "noscript".toList := (fits_ne h).1
  unfold isRawText rawKind
  simp only [List.contains_iff_mem, List.mem_cons, List.not_mem_nil, or_false]
  constructor
  · rintro (h | h | h)
    · subst h; left; decide +kernel
    · subst h; right; decide +kernel
    · exact absurd h hf
  · intro h
    split at h
    · next e => exact .inl e
    · split at h
      · next e =>
        rcases e with e | e | e
        · exact .inr (.inl e)
        · subst e; revert he; decide +kernel
        · subst e; revert he; decide +kernel
      · split at h <;> simp at h

/-- Elements that are read without raw text are written without raw text. -/
theorem raw_none {stack : List Str} {tag : Str} (h : fits stack tag = true) (hk : rawKind tag = none) :
    isRawText tag = false := by
  have he : escapedTags.contains tag = false := by
    rw [Bool.eq_false_iff]
    intro he
    simp only [escapedTags, List.contains_iff_mem, List.mem_cons, List.not_mem_nil, or_false] at he
    rcases he with rfl | rfl <;> (revert hk; decide +kernel)
  rw [Bool.eq_false_iff, ne_eq, raw_iff h he, hk]; simp

theorem rawKind_cases {tag : Str} {k : RawKind} (h : rawKind tag = some k) :
    (k = .script ∧ tag = "script".toList) ∨ (k = .rawtext ∧ (tag = "style".toList ∨ tag = "iframe".toList ∨ tag = "noembed".toList)) ∨
    (k = .rcdata ∧ (tag = "title".toList ∨ tag = "textarea".toList)) := by
  unfold rawKind at h
  split at h
  · next e => cases h; exact .inl ⟨rfl, e⟩
  · split at h
    · next e => cases h; exact .inr (.inl ⟨rfl, e⟩)
    · split at h
      · next e => cases h; exact .inr (.inr ⟨rfl, e⟩)
      · cases h

/-- Tags of elements with raw text are letters. -/
theorem rawKind_tag {tag : Str} {k : RawKind} (h : rawKind tag = some k) :
    tag.all isAlpha = true ∧ tag.map toLowerAscii = tag ∧ tag ≠ "head".toList ∧ tag ≠ "body".toList ∧
      tag ≠ "html".toList := by
  rcases rawKind_cases h with ⟨_, rfl⟩ | ⟨_, rfl | rfl | rfl⟩ | ⟨_, rfl | rfl⟩ <;> decide +kernel

/-- What is read before the children of an element with raw text. -/
theorem insert_raw {s : St} {tag : Str} {as : Attrs} {k : RawKind} (hv : voidTags.contains tag = false)
    (hk : rawKind tag = some k) : insert s tag as =
      ⟨.raw k tag, s.mode, tag :: s.stack, dropsLf tag, s.out ++ [.open_ tag as]⟩ := by
  unfold insert
  rw [hv, hk]
  rfl

/-- An element with raw text, in a head or in a body. -/
theorem run_rawElement {s : St} {tag : Str} {as : Attrs} {k : RawKind} {cs : List Html}
    (ht : okTag tag = true) (ha : as.all okAttr = true) (hu : as.Unique)
    (hv : voidTags.contains tag = false) (hv' : isVoid tag = false) (hk : rawKind tag = some k)
    (hraw : escapedTags.contains tag = false → (isRawText tag = true ↔ k ≠ .rcdata))
    (hcs : Html.okRawKids k tag cs = true) (hlf : (dropsLf tag && Html.startsLf cs) = false) (hl : s.lex = .data)
    (hm : s.mode = .inBody ∨ s.mode = .inHead)
    (hs : ∀ l, onStart { s with lex := l } tag as = some (insert s tag as)) :
    run s ((Html.element tag as cs).ser false) =
      some { s with skip := false, out := s.out ++ (Html.element tag as cs).evs } := by
  obtain ⟨h1, h2, h3, h4, h5⟩ := rawKind_tag hk
  obtain ⟨l, e⟩ := run_startTag ht ha (okAttrs_nodup ha hu) hl
  rw [hs l, insert_raw hv hk] at e
  have eo : ∀ (sk : Bool) (out : List Ev), onEnd ⟨.raw k tag, s.mode, tag :: s.stack, sk, out⟩ tag =
      some { s with skip := false, out := out ++ [.close] } := by
    intro sk out
    obtain ⟨lex, mode, stack, skip, o⟩ := s
    simp only at hl hm
    rcases hm with rfl | rfl <;> simp only [onEnd, List.head?_cons, if_true, h3, h4, h5, if_false, List.tail_cons, hl]
  have e2 : "</".toList = ['<', '/'] := by decide +kernel
  simp only [Html.ser, hv', Bool.false_eq_true, if_false]
  rw [e2]
  rw [run_append_of e]
  have close : ∀ (sk : Bool) (out : List Ev), run ⟨.raw k tag, s.mode, tag :: s.stack, sk, out⟩ ('<' :: '/' :: (tag ++ ['>'])) =
      some { s with skip := false, out := out ++ [.close] } := by
    intro sk out
    rw [run_cons_of (s' := ⟨.rawLt k tag, s.mode, tag :: s.stack, sk, out⟩),
      run_cons_of (s' := ⟨.rawEnd k tag [], s.mode, tag :: s.stack, sk, out⟩)]
    · have := run_rawClose (s := ⟨.raw k tag, s.mode, tag :: s.stack, sk, out⟩) (k := k) h1 h2
      rw [onEnd_lex ⟨.raw k tag, s.mode, tag :: s.stack, sk, out⟩, eo] at this
      exact this
    · simp [step]
    · simp [step, rawChar]
  unfold Html.okRawKids at hcs
  split at hcs
  · simp only [Html.serL, List.nil_append, List.append_assoc, List.cons_append]
    rw [close]
    simp [Html.evs, Html.evsL]
  · next t =>
    simp only [Bool.and_eq_true, Bool.not_eq_true', List.isEmpty_eq_false_iff] at hcs
    obtain ⟨⟨hne, hesc⟩, hcs⟩ := hcs
    have hraw := hraw hesc
    have hskip : dropsLf tag = true → t.head? ≠ some '\n' := by
      intro hd e
      rw [hd] at hlf
      simp [Html.startsLf, e] at hlf
    simp only [Html.serL, Html.ser, List.append_nil, List.append_assoc, List.cons_append, List.nil_append]
    by_cases hr : k = .rcdata
    · subst hr
      rw [if_pos rfl] at hcs
      have : isRawText tag = false := by
        rw [Bool.eq_false_iff]; intro h; exact hraw.1 h rfl
      rw [this, if_neg (by simp), run_append_of (run_escText_raw hcs rfl), insertChars hne hskip, close]
      simp [Html.evs, Html.evsL]
    · rw [if_neg hr] at hcs
      have : isRawText tag = true := hraw.2 hr
      simp only [okRaw, Bool.and_eq_true, Bool.not_eq_true', Bool.and_eq_false_iff, beq_eq_false_iff_ne] at hcs
      obtain ⟨⟨c1, c2⟩, c3⟩ := hcs
      rw [this, if_pos rfl]
      have := run_raw hr h1 h2 (t := t) (s := ⟨.raw k tag, s.mode, tag :: s.stack, dropsLf tag, s.out ++ [.open_ tag as]⟩)
        .raw c1 c2 (fun h => c3.resolve_left (fun h' => h' h))
      rw [this, List.nil_append, insertChars hne hskip, eo]
      simp [Html.evs, Html.evsL]
  · cases hcs

/-- A void element, in a head or in a body. -/
theorem run_voidElement {s : St} {tag : Str} {as : Attrs} {cs : List Html}
    (ht : okTag tag = true) (ha : as.all okAttr = true) (hu : as.Unique)
    (hv : voidTags.contains tag = true) (hv' : isVoid tag = true) (hcs : cs = []) (hl : s.lex = .data)
    (hs : ∀ l, onStart { s with lex := l } tag as = some (insert s tag as)) :
    run s ((Html.element tag as cs).ser false) =
      some { s with skip := false, out := s.out ++ (Html.element tag as cs).evs } := by
  obtain ⟨l, e⟩ := run_startTag ht ha (okAttrs_nodup ha hu) hl
  subst hcs
  simp only [Html.ser, hv', if_true, List.append_nil]
  rw [e, hs l]
  unfold insert
  rw [if_pos hv]
  obtain ⟨lex, mode, stack, skip, o⟩ := s
  simp only at hl
  subst hl
  simp [Html.evs, Html.evsL]

mutual
theorem run_tree : ∀ (t : Html) {stack : List Str} {skip : Bool} {out : List Ev}, t.readable stack = true →
    (skip = true → Html.startsLf [t] = false) →
    run ⟨.data, .inBody, stack, skip, out⟩ (t.ser false) = some ⟨.data, .inBody, stack, false, out ++ t.evs⟩
  | .document, _, _, _, h, _ => by simp [Html.readable] at h
  | .text s, stack, skip, out, h, hs => by
    simp only [Html.readable, Bool.and_eq_true, Bool.not_eq_true', List.isEmpty_eq_false_iff] at h
    simp only [Html.ser, Bool.false_eq_true, if_false]
    rw [run_escText h.1.2 h.2 rfl rfl, insertChars h.1.1 (fun hk e => by
      have := hs hk
      simp [Html.startsLf, e] at this)]
    rfl
  | .comment s, stack, skip, out, h, _ => by
    simp only [Html.readable] at h
    simp only [Html.ser]
    rw [run_commentNode h rfl]
    rfl
  | .element tag as cs, stack, skip, out, h, _ => by
    simp only [Html.readable, Bool.and_eq_true, Bool.not_eq_true', decide_eq_true_eq] at h
    obtain ⟨⟨⟨⟨⟨ht, ha⟩, hu⟩, hf⟩, hlf⟩, hc⟩ := h
    have hs : ∀ l, onStart ⟨l, .inBody, stack, skip, out⟩ tag as = some (insert ⟨.data, .inBody, stack, skip, out⟩ tag as) := by
      intro l
      simp only [onStart, hf, if_true]
      rw [← insert_lex ⟨.data, .inBody, stack, skip, out⟩ l]
    by_cases hv : voidTags.contains tag = true
    · rw [if_pos hv, List.isEmpty_iff] at hc
      exact run_voidElement ht ha hu hv (by rw [void_iff, hv]) hc rfl hs
    · rw [if_neg hv] at hc
      have hv0 : voidTags.contains tag = false := by simpa using hv
      have hv' : isVoid tag = false := by rw [void_iff, hv0]
      cases hk : rawKind tag with
      | some k =>
        rw [hk] at hc
        refine run_rawElement ht ha hu hv0 hv' hk ?_ hc hlf rfl (.inl rfl) hs
        intro he
        rw [raw_iff hf he, hk]
        cases k <;> simp
      | none =>
        rw [hk] at hc
        simp only [Bool.and_eq_true] at hc
        have hr : isRawText tag = false := raw_none hf hk
        obtain ⟨l, e⟩ := run_startTag ht ha (okAttrs_nodup ha hu) (s := ⟨.data, .inBody, stack, skip, out⟩) rfl
        rw [hs l] at e
        simp only [Html.ser, hv', Bool.false_eq_true, if_false, hr]
        rw [run_append_of e]
        have ei : insert ⟨.data, .inBody, stack, skip, out⟩ tag as =
            ⟨.data, .inBody, tag :: stack, dropsLf tag, out ++ [.open_ tag as]⟩ := by
          unfold insert; rw [hv0, hk]; rfl
        rw [ei, List.append_assoc, List.append_assoc, run_append_of (run_trees cs hc.2 (by
          intro hd
          rw [hd, Bool.true_and] at hlf
          exact hlf)), ← List.append_assoc]
        rw [run_close ht rfl]
        have hb : tag ≠ "body".toList ∧ tag ≠ "html".toList := (fits_ne hf).2
        simp only [onEnd, List.head?_cons, if_true, hb.1, hb.2, if_false, List.tail_cons]
        simp [Html.evs]
theorem run_trees : ∀ (cs : List Html) {stack : List Str} {skip : Bool} {out : List Ev}, Html.readableL stack cs = true →
    (skip = true → Html.startsLf cs = false) →
    run ⟨.data, .inBody, stack, skip, out⟩ (Html.serL false cs) =
      some ⟨.data, .inBody, stack, skip && cs.isEmpty, out ++ Html.evsL cs⟩
  | [], _, _, _, _, _ => by simp [Html.serL, run_nil, Html.evsL]
  | c :: cs, stack, skip, out, h, hs => by
    simp only [Html.readableL, Bool.and_eq_true] at h
    simp only [Html.serL]
    rw [run_append_of (run_tree c h.1 (fun hk => by
      have := hs hk
      cases c <;> simp_all [Html.startsLf])), run_trees cs h.2 (by simp)]
    simp [Html.evsL]
end

end Reader
end Hotmeal
