import Verif.Model.Sink
import Verif.Lemmas.ArenaOps
import Verif.Lemmas.List
import Verif.Props.Attrs

/-!
# Parsing glue: C32, C33, C34, C43, C44
-/

namespace Hotmeal

/-! ## C32 -/

/-- The capital letters with their small ones. -/
def letterPairs : List (Char × Char) :=
  "ABCDEFGHIJKLMNOPQRSTUVWXYZ".toList.zip "abcdefghijklmnopqrstuvwxyz".toList

/-- `s` is the keyword `kw`, which is written in small letters, in any letter case. -/
def AnyCase (s kw : Str) : Prop := s.length = kw.length ∧ ∀ p ∈ s.zip kw, p.1 = p.2 ∨ p ∈ letterPairs

instance (s kw : Str) : Decidable (AnyCase s kw) := by unfold AnyCase; infer_instance

/-- Specification: optional ASCII white space, then `<!doctype` in any letter case. -/
def StartsWithDoctype (s : Str) : Prop :=
  ∃ ws kw rest, s = ws ++ kw ++ rest ∧ (∀ c ∈ ws, c ∈ [' ', '\t', '\n', Char.ofNat 12, '\r']) ∧
    AnyCase kw "<!doctype".toList

theorem toLowerAscii_eq {c d : Char} (hd : ¬ (65 ≤ d.toNat ∧ d.toNat ≤ 90)) :
    toLowerAscii c = d ↔ c = d ∨ (c, d) ∈ letterPairs := by
  have hc : c = Char.ofNat c.toNat := (Char.ofNat_toNat c).symm
  unfold toLowerAscii
  split
  · next h =>
    have key : ∀ n, n < 91 → 65 ≤ n → (Char.ofNat n, Char.ofNat (n + 32)) ∈ letterPairs ∧
        ∀ p ∈ letterPairs, p.1 = Char.ofNat n → p.2 = Char.ofNat (n + 32) := by decide +kernel
    obtain ⟨k1, k2⟩ := key c.toNat (by omega) h.1
    constructor
    · rintro rfl
      right
      rw [← hc] at k1
      exact k1
    · rintro (rfl | hp)
      · exact absurd h hd
      · exact (k2 _ hp hc).symm
  · next h =>
    have key : ∀ p ∈ letterPairs, 65 ≤ p.1.toNat ∧ p.1.toNat ≤ 90 := by decide +kernel
    exact ⟨.inl, fun hp => hp.elim id fun hp => absurd (key _ hp) h⟩

theorem anyCase_iff {kw : Str} (hkw : ∀ d ∈ kw, ¬ (65 ≤ d.toNat ∧ d.toNat ≤ 90)) (s : Str) :
    AnyCase s kw ↔ s.map toLowerAscii = kw := by
  unfold AnyCase
  induction s generalizing kw with
  | nil => cases kw <;> simp
  | cons x xs ih =>
    cases kw with
    | nil => simp
    | cons y ys =>
      have := ih fun d hd => hkw d (List.mem_cons_of_mem _ hd)
      rw [List.map_cons, List.cons.injEq, ← this, toLowerAscii_eq (hkw y (List.mem_cons_self ..))]
      simp only [List.length_cons, Nat.add_right_cancel_iff, List.zip_cons_cons, List.mem_cons, forall_eq_or_imp]
      exact ⟨fun ⟨h1, h2, h3⟩ => ⟨h2, h1, h3⟩, fun ⟨h2, h1, h3⟩ => ⟨h1, h2, h3⟩⟩

theorem all_zip_lower {l kw : Str} (h : l.length = kw.length) :
    ((l.zip kw).all (fun p => toLowerAscii p.1 == p.2)) = true ↔ l.map toLowerAscii = kw := by
  induction l generalizing kw with
  | nil => cases kw <;> simp_all
  | cons x xs ih =>
    cases kw with
    | nil => simp at h
    | cons y ys => simp at h; simp [ih h]

theorem isAsciiWs_iff (c : Char) : isAsciiWs c = true ↔
    c ∈ [' ', '\t', '\n', Char.ofNat 12, '\r'] := by
  simp [isAsciiWs, or_assoc]

theorem toLowerAscii_lt {c : Char} (h : toLowerAscii c = '<') : c = '<' := by
  unfold toLowerAscii at h
  split at h
  · next hr =>
    exfalso
    have hv : (c.toNat + 32).isValidChar := by left; omega
    have : (Char.ofNat (c.toNat + 32)).toNat = c.toNat + 32 := by
      unfold Char.ofNat
      rw [dif_pos hv]
      rfl
    rw [h] at this
    have h60 : ('<' : Char).toNat = 60 := rfl
    omega
  · exact h

/-- **C32.** A text is treated as having a doctype iff it starts with one. -/
theorem C32_doctype_detection (s : Str) : hasDoctypePrefix s = true ↔ StartsWithDoctype s := by
  unfold hasDoctypePrefix StartsWithDoctype
  simp only [Bool.and_eq_true, decide_eq_true_eq, ← isAsciiWs_iff, anyCase_iff (kw := "<!doctype".toList) (by decide)]
  constructor
  · rintro ⟨h1, h2⟩
    rw [all_zip_lower (by simp only [List.length_take]; omega)] at h2
    refine ⟨s.takeWhile isAsciiWs, _, (s.dropWhile isAsciiWs).drop "<!doctype".toList.length,
      ?_, ?_, h2⟩
    · rw [List.append_assoc, List.take_append_drop, List.takeWhile_append_dropWhile]
    · intro c hc
      exact (List.all_eq_true.1 List.all_takeWhile) c hc
  · rintro ⟨ws, kw, rest, rfl, hws, hkw⟩
    have hlen : kw.length = "<!doctype".toList.length := by rw [← hkw]; simp
    have hd : (ws ++ kw ++ rest).dropWhile isAsciiWs = kw ++ rest := by
      rw [List.append_assoc]
      cases kw with
      | nil => simp at hlen
      | cons x xs =>
        have hx : toLowerAscii x = '<' := by
          have := congrArg List.head? hkw
          simpa using this
        have hx' := toLowerAscii_lt hx
        rw [List.dropWhile_append_of_pos hws, hx']
        rfl
    rw [hd]
    refine ⟨by simp only [List.length_append]; omega, ?_⟩
    have : (kw ++ rest).take "<!doctype".toList.length = kw := by
      rw [← hlen]; simp
    rw [this, all_zip_lower hlen]
    exact hkw

/-- **C32.** A parsed document has a doctype only if the text starts with one, and then it is the
one the HTML parser found; the text is handed over unchanged in that case. -/
theorem C32_doctype_kept (html5 : Str → Document) (s : Str) :
    (StartsWithDoctype s → parseWith html5 s = html5 s) ∧
    (¬ StartsWithDoctype s → (parseWith html5 s).doctype = none ∧
      (parseWith html5 s).arena = (html5 (parseInput s)).arena ∧
      (parseWith html5 s).root = (html5 (parseInput s)).root) := by
  constructor
  · intro h
    rw [← C32_doctype_detection] at h
    simp [parseWith, parseInput, h]
  · intro h
    rw [← C32_doctype_detection] at h
    simp [parseWith, h]

/-- **C32.** The text given to the HTML parser always contains the input in one piece, and starts
with a doctype. -/
theorem C32_input_kept (s : Str) :
    (∃ pre suf, parseInput s = pre ++ s ++ suf) ∧ StartsWithDoctype (parseInput s) := by
  unfold parseInput
  split
  · next h => exact ⟨⟨[], [], by simp⟩, (C32_doctype_detection s).1 h⟩
  · split
    · exact ⟨⟨"<!DOCTYPE html>".toList, [], by simp⟩,
        [], "<!DOCTYPE".toList, " html>".toList ++ s, by simp, by simp, by decide⟩
    · exact ⟨⟨"<!DOCTYPE html><html><body>".toList, "</body></html>".toList, rfl⟩,
        [], "<!DOCTYPE".toList, " html><html><body>".toList ++ s ++ "</body></html>".toList,
        by simp, by simp, by decide⟩

example : StartsWithDoctype " \n<!DocType html><p>".toList :=
  ⟨" \n".toList, "<!DocType".toList, " html><p>".toList, by decide, by decide, by decide⟩

/-! ## C34 -/

namespace Sink

/-- The names of `attrs` that `old` lacks, first occurrence only. -/
def missing (old : Attrs) : Attrs → Attrs
  | [] => []
  | (k, v) :: rest =>
    if k ∈ old.map Prod.fst then missing old rest else (k, v) :: missing (old ++ [(k, v)]) rest

/-- **C34.** Existing attributes are a prefix of the result: nothing is overwritten, removed or
reordered. What is added are missing names, in order. -/
theorem C34_adds_missing (old attrs : Attrs) : addMissing old attrs = old ++ missing old attrs := by
  induction attrs generalizing old with
  | nil => simp [addMissing, missing]
  | cons kv rest ih =>
    obtain ⟨k, v⟩ := kv
    have hiff : (old.any (fun kv => decide (kv.1 = k))) = true ↔ k ∈ old.map Prod.fst := by
      simp only [List.any_eq_true, decide_eq_true_eq, List.mem_map]
    simp only [addMissing, missing]
    by_cases h : k ∈ old.map Prod.fst
    · rw [if_pos (hiff.2 h), if_pos h, ih]
    · rw [if_neg (fun h' => h (hiff.1 h')), if_neg h, ih, List.append_assoc]
      rfl

/-- **C34.** Reading an attribute afterwards gives the old value where there was one, else the
first delivered value. -/
theorem C34_values (old attrs : Attrs) (k : QualName) :
    Attrs.value (addMissing old attrs) k = (Attrs.value old k).or (Attrs.value attrs k) := by
  have happ : ∀ (a b : Attrs), Attrs.value (a ++ b) k = (Attrs.value a k).or (Attrs.value b k) := by
    intro a b
    induction a with
    | nil => simp [Attrs.value]
    | cons x xs ih =>
      obtain ⟨q, w⟩ := x
      have e : Attrs.value ((q, w) :: xs ++ b) k = if q = k then some w else Attrs.value (xs ++ b) k := rfl
      rw [e, Attrs.value]
      split
      · simp
      · exact ih
  induction attrs generalizing old with
  | nil => simp [addMissing, Attrs.value]
  | cons kv rest ih =>
    obtain ⟨q, v⟩ := kv
    simp only [addMissing]
    split
    · next h =>
      rw [ih, Attrs.value]
      split
      · next e =>
        subst e
        have : (Attrs.value old q).isSome := by
          rw [Attrs.value_isSome]
          simpa using h
        obtain ⟨w, hw⟩ := Option.isSome_iff_exists.1 this
        simp [hw]
      · rfl
    · rw [ih, happ]
      simp only [Attrs.value]
      cases h : Attrs.value old k with
      | some w => simp
      | none =>
        simp only [Option.none_or]
        split <;> simp

/-- **C34.** No duplicate names are created. -/
theorem C34_unique (old attrs : Attrs) (h : old.Unique) : (addMissing old attrs).Unique := by
  induction attrs generalizing old with
  | nil => exact h
  | cons kv rest ih =>
    obtain ⟨k, v⟩ := kv
    simp only [addMissing]
    split
    · exact ih old h
    · next hk =>
      apply ih
      unfold Attrs.Unique
      rw [List.map_append, List.nodup_append]
      refine ⟨h, by simp, ?_⟩
      intro x hx y hy
      simp at hy; subst hy
      rintro rfl
      apply hk
      obtain ⟨z, hz, e⟩ := List.mem_map.1 hx
      simp only [List.any_eq_true, decide_eq_true_eq]
      exact ⟨z, hz, e⟩

/-- **C34.** On the document: only the attribute list of an element changes; other node kinds are
untouched. -/
theorem C34_document (S : Sink) (n : Nat) (attrs : Attrs) :
    (∀ tag old ns, S.arena.data n = ⟨.element tag old, ns⟩ →
      S.addAttrsIfMissing n attrs =
        { S with arena := S.arena.setData n ⟨.element tag (old ++ missing old attrs), ns⟩ }) ∧
    ((∀ tag old, (S.arena.data n).kind ≠ .element tag old) → S.addAttrsIfMissing n attrs = S) := by
  constructor
  · intro tag old ns h
    simp [addAttrsIfMissing, h, C34_adds_missing]
  · intro h
    unfold addAttrsIfMissing
    split
    · next tag a ns e => exact absurd (by rw [e]) (h tag a)
    · rfl

example : addMissing [(⟨none, [], "a".toList⟩, "1".toList)]
    [(⟨none, [], "a".toList⟩, "2".toList), (⟨none, [], "b".toList⟩, "3".toList)] =
    [(⟨none, [], "a".toList⟩, "1".toList), (⟨none, [], "b".toList⟩, "3".toList)] := by decide

/-! ## C33 -/

/-- Specification: the text of a list of nodes, only text nodes contributing. -/
def textOfList (A : Arena NodeData) (l : List Nat) : Str :=
  l.flatMap fun c => match (A.data c).kind with
    | .text s => s
    | _ => []

/-- Specification: is the node a text node? -/
def IsText (A : Arena NodeData) (n : Nat) : Prop := ∃ s, (A.data n).kind = .text s

/-- Specification: no two text nodes side by side. -/
def NoAdjacentText (A : Arena NodeData) (l : List Nat) : Prop :=
  ∀ i x y, l[i]? = some x → l[i + 1]? = some y → ¬ (IsText A x ∧ IsText A y)

theorem textOf_some {A : Arena NodeData} {n : Nat} {s : Str} :
    textOf A n = some s ↔ (A.data n).kind = .text s := by
  unfold textOf
  split
  · next t h => simp [h]
  · next h => simp; intro e; exact absurd e (h s)

theorem textOf_none {A : Arena NodeData} {n : Nat} : textOf A n = none ↔ ¬ IsText A n := by
  unfold textOf IsText
  split
  · next t h => simp [h]
  · next h => simp; exact fun s e => h s e

theorem textOfList_congr {A B : Arena NodeData} {l : List Nat}
    (h : ∀ c ∈ l, (B.data c).kind = (A.data c).kind) : textOfList B l = textOfList A l := by
  unfold textOfList List.flatMap
  congr 1
  apply List.map_congr_left
  intro c hc
  rw [h c hc]

theorem textOfList_append (A : Arena NodeData) (l r : List Nat) :
    textOfList A (l ++ r) = textOfList A l ++ textOfList A r := by
  simp [textOfList]

theorem textOfList_single {A : Arena NodeData} {n : Nat} {s : Str}
    (h : (A.data n).kind = .text s) : textOfList A [n] = s := by
  simp [textOfList, h]

theorem pushText_isText {A : Arena NodeData} {l : Nat} {old s : Str}
    (h : (A.data l).kind = .text old) (m : Nat) : IsText (pushText A l old s) m ↔ IsText A m := by
  unfold IsText pushText Arena.setData
  simp only [Arena.upd_apply]
  split
  · next e => subst e; simp [h]
  · rfl

theorem pushText_text {A : Arena NodeData} {l : Nat} {old s : Str} {pre : List Nat}
    (hl : (A.data l).kind = .text old) (hn : l ∉ pre) :
    textOfList (pushText A l old s) (pre ++ [l]) = textOfList A (pre ++ [l]) ++ s := by
  rw [textOfList_append, textOfList_append, textOfList_single hl]
  rw [textOfList_single (s := old ++ s) (by simp [pushText, Arena.setData])]
  rw [textOfList_congr (A := A)]
  · simp
  · intro c hc
    have : c ≠ l := by rintro rfl; exact hn hc
    simp [pushText, Arena.setData, Arena.upd_apply, this]

/-- **C33.** Appending text to a node: the text of its children grows by exactly the delivered
text at the end, existing children stay, at most one child is added (at the end), other nodes
keep their children, and no new pair of adjacent text nodes appears. -/
theorem C33_append_text (A : Arena NodeData) (h : A.WF) (p : Nat) (hp : p < A.next) (s : Str) :
    let A' := appendText A p s
    A'.WF ∧
    textOfList A' (A'.children p) = textOfList A (A.children p) ++ s ∧
    (A'.children p = A.children p ∨ A'.children p = A.children p ++ [A.next]) ∧
    (∀ q, q ≠ p → A'.children q = A.children q ∧
      textOfList A' (A'.children q) = textOfList A (A.children q)) ∧
    (NoAdjacentText A (A.children p) → NoAdjacentText A' (A'.children p)) := by
  -- the case where a new text node is added
  have newCase : ((∀ l, (A.children p).getLast? = some l → ¬ IsText A l)) →
      let A' := (A.addChild p ⟨.text s, .html⟩).1
      A'.WF ∧
      textOfList A' (A'.children p) = textOfList A (A.children p) ++ s ∧
      (A'.children p = A.children p ∨ A'.children p = A.children p ++ [A.next]) ∧
      (∀ q, q ≠ p → A'.children q = A.children q ∧
        textOfList A' (A'.children q) = textOfList A (A.children q)) ∧
      (NoAdjacentText A (A.children p) → NoAdjacentText A' (A'.children p)) := by
    intro hlast
    have hkids : ∀ q, ∀ c ∈ A.children q, c ≠ A.next := by
      intro q c hc
      have := (h.lt_of_parent _ _ ((h.mem_iff _ _).1 hc)).1
      omega
    have hd : ∀ c, c ≠ A.next → (A.addChild p ⟨.text s, .html⟩).1.data c = A.data c := by
      intro c hc; rw [Arena.addChild_data, if_neg hc]
    have hdn : (A.addChild p ⟨.text s, .html⟩).1.data A.next = ⟨.text s, .html⟩ := by
      rw [Arena.addChild_data, if_pos rfl]
    have ht : ∀ q, textOfList (A.addChild p ⟨.text s, .html⟩).1 (A.children q) =
        textOfList A (A.children q) := by
      intro q; apply textOfList_congr; intro c hc; rw [hd c (hkids q c hc)]
    have hcp : (A.addChild p ⟨.text s, .html⟩).1.children p = A.children p ++ [A.next] := by
      rw [h.addChild_children, if_pos rfl]
    refine ⟨h.addChild hp _, ?_, Or.inr hcp, ?_, ?_⟩
    · rw [hcp, textOfList_append, ht, textOfList_single (by rw [hdn])]
    · intro q hq
      have hcq : (A.addChild p ⟨.text s, .html⟩).1.children q = A.children q := by
        rw [h.addChild_children, if_neg hq]
      exact ⟨hcq, by rw [hcq]; exact ht q⟩
    · intro hna i x y hx hy
      rw [hcp] at hx hy
      rintro ⟨tx, ty⟩
      have hxlt : i + 1 < (A.children p ++ [A.next]).length := by
        rcases Nat.lt_or_ge (i + 1) (A.children p ++ [A.next]).length with h' | h'
        · exact h'
        · rw [List.getElem?_eq_none h'] at hy; cases hy
      simp at hxlt
      rw [List.getElem?_append_left (by omega)] at hx
      have hxm : x ∈ A.children p := List.mem_of_getElem? hx
      have tx' : IsText A x := by
        obtain ⟨t, ht⟩ := tx
        rw [hd x (hkids p x hxm)] at ht; exact ⟨t, ht⟩
      by_cases hlt : i + 1 < (A.children p).length
      · rw [List.getElem?_append_left hlt] at hy
        have hym : y ∈ A.children p := List.mem_of_getElem? hy
        obtain ⟨t, ht⟩ := ty
        rw [hd y (hkids p y hym)] at ht
        exact hna i x y hx hy ⟨tx', t, ht⟩
      · have : i = (A.children p).length - 1 := by omega
        apply hlast x _ tx'
        rw [List.getLast?_eq_getElem?, ← this]; exact hx
  simp only [appendText]
  split
  · next l hl =>
    split
    · next old hold =>
      have hold' := textOf_some.1 hold
      obtain ⟨pre, hpre⟩ := List.getLast?_eq_some_iff.1 hl
      have hlpre : l ∉ pre := by
        have := h.nodup p
        rw [hpre, List.nodup_append] at this
        intro hm; exact this.2.2 l hm l (by simp) rfl
      have hch : ∀ q, (pushText A l old s).children q = A.children q := fun q => rfl
      refine ⟨h.setData _ _, ?_, Or.inl rfl, ?_, ?_⟩
      · rw [hch, hpre]; exact pushText_text hold' hlpre
      · intro q hq
        refine ⟨rfl, ?_⟩
        apply textOfList_congr
        intro c hc
        have hcl : c ≠ l := by
          rintro rfl
          have h1 := (h.mem_iff _ _).1 hc
          have h2 : A.parent c = some p := (h.mem_iff _ _).1 (by rw [hpre]; simp)
          rw [h1] at h2; cases h2; exact hq rfl
        simp [pushText, Arena.setData, Arena.upd_apply, hcl]
      · intro hna i x y hx hy
        rw [pushText_isText hold', pushText_isText hold']
        exact hna i x y hx hy
    · next hnone =>
      apply newCase
      intro l' hl'
      rw [hl] at hl'; cases hl'
      exact textOf_none.1 hnone
  · next hnone =>
    apply newCase
    intro l hl
    rw [hnone] at hl; cases hl

/-- **C33.** Text delivered before a sibling: it goes to the end of the text in front of that
sibling; the sibling and everything after it stay in place; a pair of adjacent text nodes can only
appear if the sibling itself is a text node. -/
theorem C33_text_before_sibling (A : Arena NodeData) (h : A.WF) (p sib : Nat) (s : Str)
    (l r : List Nat) (hc : A.children p = l ++ sib :: r) :
    ∃ A' l', textBefore A sib s = .ok A' ∧ A'.WF ∧
      A'.children p = l' ++ sib :: r ∧
      (l' = l ∨ l' = l ++ [A.next]) ∧
      textOfList A' l' = textOfList A l ++ s ∧
      textOfList A' (sib :: r) = textOfList A (sib :: r) ∧
      (NoAdjacentText A (A.children p) → ¬ IsText A sib → NoAdjacentText A' (A'.children p)) := by
  have hnd := h.nodup p
  rw [hc, List.nodup_append] at hnd
  obtain ⟨hnl, hnsr, hdisj⟩ := hnd
  have hsibl : sib ∉ l := fun hm => hdisj sib hm sib (by simp) rfl
  have hps : A.parent sib = some p := (h.mem_iff _ _).1 (by rw [hc]; simp)
  have hidx : (l ++ sib :: r).idxOf sib = l.length := by
    rw [List.idxOf_append]; simp [hsibl]
  -- previous sibling is the last of `l`
  have hprev : prevSibling A sib = l.getLast? := by
    unfold prevSibling
    rw [hps]
    simp only [hc, hidx]
    cases hl : l.length with
    | zero => have : l = [] := List.length_eq_zero_iff.1 hl
              simp [this]
    | succ k =>
      simp only
      rw [List.getElem?_append_left (by omega), List.getLast?_eq_getElem?, hl]
      simp
  unfold textBefore
  rw [hprev]
  cases hb : (l.getLast?.bind fun x => (textOf A x).map fun old => (x, old)) with
  | some xo =>
    obtain ⟨x, old⟩ := xo
    obtain ⟨x', hx', hm⟩ := Option.bind_eq_some_iff.1 hb
    obtain ⟨old', ho', he⟩ := Option.map_eq_some_iff.1 hm
    cases he
    have hk := textOf_some.1 ho'
    obtain ⟨pre, hpre⟩ := List.getLast?_eq_some_iff.1 hx'
    have hxpre : x ∉ pre := by
      rw [hpre, List.nodup_append] at hnl
      intro hm; exact hnl.2.2 x hm x (by simp) rfl
    refine ⟨pushText A x old s, l, rfl, h.setData _ _, hc, Or.inl rfl, ?_, ?_, ?_⟩
    · rw [hpre]; exact pushText_text hk hxpre
    · apply textOfList_congr
      intro c hcm
      have : c ≠ x := by rintro rfl; exact hdisj c (by rw [hpre]; simp) c hcm rfl
      simp [pushText, Arena.setData, Arena.upd_apply, this]
    · intro hna _ i y z hy hz
      rw [pushText_isText hk, pushText_isText hk]
      exact hna i y z hy hz
  | none =>
    have hlast : ∀ x, l.getLast? = some x → ¬ IsText A x := by
      intro x hx
      rw [hx] at hb
      simp only [Option.bind_some, Option.map_eq_none_iff] at hb
      exact textOf_none.1 hb
    have hN := h.newNode (⟨.text s, .html⟩ : NodeData)
    have hplt := (h.lt_of_parent _ _ hps).2
    have hocc : ((A.newNode ⟨.text s, .html⟩).1.children p)[l.length]? = some sib := by
      rw [h.newNode_children, hc]; simp
    obtain ⟨A', e, hwf, hnx, hpar, hch, hdat⟩ := hN.insert_at (x := A.next) hocc (by simp)
      (by simp [Arena.newNode]) (by
        rw [h.anc_newNode]; intro ha; have := h.anc_lt ha hplt; omega)
    have hkids : ∀ c ∈ A.children p, c ≠ A.next := by
      intro c hcm
      have := (h.lt_of_parent _ _ ((h.mem_iff _ _).1 hcm)).1
      omega
    have hd : ∀ c, c ≠ A.next → A'.data c = A.data c := by
      intro c hcn; rw [hdat, Arena.newNode_data, if_neg hcn]
    have hdn : A'.data A.next = ⟨.text s, .html⟩ := by rw [hdat, Arena.newNode_data, if_pos rfl]
    have hcp : A'.children p = (l ++ [A.next]) ++ sib :: r := by
      rw [hch, if_pos rfl, h.newNode_children, hc]
      simp
    have hl_ne : ∀ c ∈ l, c ≠ A.next := fun c hcm => hkids c (by rw [hc]; simp [hcm])
    have hr_ne : ∀ c ∈ sib :: r, c ≠ A.next := fun c hcm => hkids c (by rw [hc]; exact List.mem_append_right _ hcm)
    refine ⟨A', l ++ [A.next], e, hwf, hcp, Or.inr rfl, ?_, ?_, ?_⟩
    · rw [textOfList_append, textOfList_single (by rw [hdn])]
      congr 1
      exact textOfList_congr (fun c hcm => by rw [hd c (hl_ne c hcm)])
    · exact textOfList_congr (fun c hcm => by rw [hd c (hr_ne c hcm)])
    · intro hna hsib i x y hx hy
      have htx : ∀ c, c ≠ A.next → (IsText A' c ↔ IsText A c) := by
        intro c hcn; unfold IsText; rw [hd c hcn]
      rw [hcp, List.append_assoc] at hx hy
      rintro ⟨tx, ty⟩
      rcases Nat.lt_trichotomy (i + 1) l.length with hlt | heq | hgt
      · rw [List.getElem?_append_left (by omega)] at hx hy
        rw [htx x (hl_ne x (List.mem_of_getElem? hx))] at tx
        rw [htx y (hl_ne y (List.mem_of_getElem? hy))] at ty
        apply hna i x y _ _ ⟨tx, ty⟩
        · rw [hc, List.getElem?_append_left (by omega)]; exact hx
        · rw [hc, List.getElem?_append_left (by omega)]; exact hy
      · rw [List.getElem?_append_left (by omega)] at hx
        rw [htx x (hl_ne x (List.mem_of_getElem? hx))] at tx
        apply hlast x _ tx
        rw [List.getLast?_eq_getElem?, ← heq]; simpa using hx
      · rw [List.getElem?_append_right (by omega)] at hy
        have e1 : i + 1 - l.length = (i - l.length) + 1 := by omega
        rw [e1] at hy
        simp only [List.singleton_append, List.getElem?_cons_succ] at hy
        rcases Nat.lt_trichotomy i l.length with h1 | h1 | h1
        · omega
        · subst h1
          simp at hy
          subst hy
          rw [htx sib (hr_ne sib (by simp))] at ty
          exact hsib ty
        · rw [List.getElem?_append_right (by omega)] at hx
          have e2 : i - l.length = (i - l.length - 1) + 1 := by omega
          rw [e2] at hx
          simp only [List.singleton_append, List.getElem?_cons_succ] at hx
          rw [htx x (hr_ne x (List.mem_of_getElem? hx))] at tx
          rw [htx y (hr_ne y (List.mem_of_getElem? hy))] at ty
          apply hna (i - 1) x y _ _ ⟨tx, ty⟩
          · rw [hc, List.getElem?_append_right (by omega)]
            have : i - 1 - l.length = i - l.length - 1 := by omega
            rw [this]; exact hx
          · rw [hc, List.getElem?_append_right (by omega)]
            have : i - 1 + 1 - l.length = i - l.length := by omega
            rw [this]; exact hy

end Sink
end Hotmeal
