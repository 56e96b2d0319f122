import Verif.Model.PatchDebug
import Verif.Lemmas.Json
import Verif.Lemmas.Dumps
import Verif.Props.Wire

set_option autoImplicit false
set_option linter.unusedSectionVars false

/-!
# C89: what is printed of a patch
-/

namespace Hotmeal
namespace PatchDebug

open Dump (DebugStr quote debugStr_quote split_at_char)

/-! ### Numbers and paths -/

theorem num_inj {n m : Nat} {r r' : Str} (h1 : Json.Ends r) (h2 : Json.Ends r') (h : num n ++ r = num m ++ r') :
    n = m ∧ r = r' := by
  have e1 := Json.number_print (n := n) h1
  have e2 := Json.number_print (n := m) h2
  unfold num at h
  rw [h, e2] at e1
  simp only [Prod.mk.injEq] at e1
  exact ⟨e1.1.symm, e1.2.symm⟩

theorem num_head (n : Nat) : ∃ c r, num n = c :: r ∧ c.isDigit = true := Json.digits_head n n

theorem tail_ends : ∀ (l : List Nat) (r : Str), Json.Ends (numsTail l ++ r)
  | [], r => by
    have : "]".toList = [']'] := by decide +kernel
    simp only [numsTail, this, List.cons_append]
    exact .cons (by decide)
  | n :: l, r => by
    have : ", ".toList = [',', ' '] := by decide +kernel
    simp only [numsTail, this, List.cons_append]
    exact .cons (by decide)

theorem numsTail_inj : ∀ {l l' : List Nat} {r r' : Str}, numsTail l ++ r = numsTail l' ++ r' → l = l' ∧ r = r'
  | [], [], _, _, h => ⟨rfl, List.append_cancel_left h⟩
  | [], n :: l, r, r', h => by
    have e1 : "]".toList = [']'] := by decide +kernel
    have e2 : ", ".toList = [',', ' '] := by decide +kernel
    simp [numsTail, e1, e2] at h
  | n :: l, [], r, r', h => by
    have e1 : "]".toList = [']'] := by decide +kernel
    have e2 : ", ".toList = [',', ' '] := by decide +kernel
    simp [numsTail, e1, e2] at h
  | n :: l, m :: l', r, r', h => by
    simp only [numsTail, List.append_assoc] at h
    obtain ⟨e1, e2⟩ := num_inj (tail_ends l r) (tail_ends l' r') (List.append_cancel_left h)
    obtain ⟨e3, e4⟩ := numsTail_inj e2
    exact ⟨by rw [e1, e3], e4⟩

theorem nums_inj {l l' : List Nat} {r r' : Str} (h : nums l ++ r = nums l' ++ r') : l = l' ∧ r = r' := by
  have e0 : "[]".toList = ['[', ']'] := by decide +kernel
  have e1 : "[".toList = ['['] := by decide +kernel
  have hd : ¬ ']'.isDigit = true := by decide
  cases l with
  | nil =>
    cases l' with
    | nil => exact ⟨rfl, List.append_cancel_left h⟩
    | cons m l' =>
      obtain ⟨c, s, e, hc⟩ := num_head m
      simp only [nums, e0, e1, e, List.cons_append, List.nil_append, List.cons.injEq, true_and] at h
      exact absurd (h.1 ▸ hc) hd
  | cons n l =>
    cases l' with
    | nil =>
      obtain ⟨c, s, e, hc⟩ := num_head n
      simp only [nums, e0, e1, e, List.cons_append, List.nil_append, List.cons.injEq, true_and] at h
      exact absurd (h.1 ▸ hc) hd
    | cons m l' =>
      simp only [nums, List.append_assoc] at h
      obtain ⟨e1, e2⟩ := num_inj (tail_ends l r) (tail_ends l' r') (List.append_cancel_left h)
      obtain ⟨e3, e4⟩ := numsTail_inj e2
      exact ⟨by rw [e1, e3], e4⟩

theorem slotText_inj {s s' : Option Nat} (h : slotText s = slotText s') : s = s' := by
  have e0 : " →slot".toList = ' ' :: "→slot".toList := by decide +kernel
  cases s with
  | none =>
    cases s' with
    | none => rfl
    | some k => simp only [slotText, e0, List.cons_append, reduceCtorEq] at h
  | some k =>
    cases s' with
    | none => simp only [slotText, e0, List.cons_append, reduceCtorEq] at h
    | some k' =>
      simp only [slotText] at h
      have := List.append_cancel_left h
      rw [← List.append_nil (num k), ← List.append_nil (num k')] at this
      rw [(num_inj .nil .nil this).1]

theorem counts_inj {a a' c c' : Nat} {s s' : Option Nat}
    (h : countText a " attrs)".toList ++ countText c " children)".toList ++ slotText s =
      countText a' " attrs)".toList ++ countText c' " children)".toList ++ slotText s') : a = a' ∧ c = c' ∧ s = s' := by
  have ea : " attrs)".toList = ' ' :: 'a' :: "ttrs)".toList := by decide +kernel
  have ec : " children)".toList = ' ' :: 'c' :: "hildren)".toList := by decide +kernel
  have ep : " (".toList = [' ', '('] := by decide +kernel
  have es : " →slot".toList = ' ' :: '→' :: "slot".toList := by decide +kernel
  have hsp : ∀ r : Str, Json.Ends (' ' :: r) := fun r => .cons (by decide)
  have hcs : countText c " children)".toList ++ slotText s = countText c' " children)".toList ++ slotText s' →
      c = c' ∧ s = s' := by
    intro h
    unfold countText at h
    by_cases h1 : c = 0
    · by_cases h2 : c' = 0
      · rw [if_pos h1, if_pos h2, List.nil_append, List.nil_append] at h
        exact ⟨by rw [h1, h2], slotText_inj h⟩
      · exfalso
        rw [if_pos h1, if_neg h2, ep] at h
        cases s with
        | none => simp [slotText] at h
        | some k => simp only [slotText, es, List.nil_append, List.cons_append, List.cons.injEq] at h; exact absurd h.2.1 (by decide)
    · by_cases h2 : c' = 0
      · exfalso
        rw [if_neg h1, if_pos h2, ep] at h
        cases s' with
        | none => simp [slotText] at h
        | some k => simp only [slotText, es, List.nil_append, List.cons_append, List.cons.injEq] at h; exact absurd h.2.1 (by decide)
      · rw [if_neg h1, if_neg h2, ec] at h
        simp only [List.append_assoc, List.cons_append] at h
        obtain ⟨e1, e2⟩ := num_inj (hsp _) (hsp _) (List.append_cancel_left h)
        refine ⟨e1, slotText_inj ?_⟩
        simp only [List.cons.injEq, true_and] at e2
        exact List.append_cancel_left e2
  have hno : ∀ (a : Nat) (c : Nat) (s : Option Nat) (r : Str),
      countText c " children)".toList ++ slotText s ≠ " (".toList ++ num a ++ " attrs)".toList ++ r := by
    intro a c s r h
    unfold countText at h
    by_cases h1 : c = 0
    · rw [if_pos h1, ep] at h
      cases s with
      | none => simp [slotText] at h
      | some k => simp only [slotText, es, List.nil_append, List.cons_append, List.cons.injEq] at h; exact absurd h.2.1 (by decide)
    · rw [if_neg h1, ec, ea] at h
      simp only [List.append_assoc, List.cons_append] at h
      obtain ⟨_, e2⟩ := num_inj (hsp _) (hsp _) (List.append_cancel_left h)
      simp only [List.cons.injEq, true_and] at e2
      exact absurd e2.1 (by decide)
  rw [List.append_assoc, List.append_assoc] at h
  by_cases h1 : a = 0
  · by_cases h2 : a' = 0
    · rw [countText, if_pos h1, countText.eq_1 a', if_pos h2, List.nil_append, List.nil_append] at h
      exact ⟨by rw [h1, h2], hcs h⟩
    · rw [countText, if_pos h1, countText.eq_1 a', if_neg h2, List.nil_append] at h
      exact absurd h (hno _ _ _ _)
  · by_cases h2 : a' = 0
    · rw [countText, if_neg h1, countText.eq_1 a', if_pos h2, List.nil_append] at h
      exact absurd h.symm (hno _ _ _ _)
    · rw [countText, if_neg h1, countText.eq_1 a', if_neg h2, ea] at h
      simp only [List.append_assoc, List.cons_append] at h
      obtain ⟨e1, e2⟩ := num_inj (hsp _) (hsp _) (List.append_cancel_left h)
      simp only [List.cons.injEq, true_and] at e2
      exact ⟨e1, hcs (List.append_cancel_left e2)⟩

section
variable (dbg : Str → Str)
theorem debug_insertElement (p tag as cs slot) : debug dbg (.insertElement p tag as cs slot) = "Insert <".toList ++ tag ++
    "> @".toList ++ nums p ++ countText as.length " attrs)".toList ++ countText cs.length " children)".toList ++
    slotText slot := rfl
theorem debug_insertText (p s slot) : debug dbg (.insertText p s slot) =
    "Insert text ".toList ++ dbg (s.take 20) ++ " @".toList ++ nums p ++ slotText slot := rfl
theorem debug_insertComment (p s slot) : debug dbg (.insertComment p s slot) =
    "Insert comment ".toList ++ dbg (s.take 20) ++ " @".toList ++ nums p ++ slotText slot := rfl
theorem debug_remove (p) : debug dbg (.remove p) = "Remove @".toList ++ nums p := rfl
theorem debug_setText (p s) : debug dbg (.setText p s) =
    "SetText ".toList ++ dbg (s.take 20) ++ " @".toList ++ nums p := rfl
theorem debug_setAttribute (p name value) : debug dbg (.setAttribute p name value) =
    "SetAttr ".toList ++ name.loc ++ "=".toList ++ dbg value ++ " @".toList ++ nums p := rfl
theorem debug_removeAttribute (p name) : debug dbg (.removeAttribute p name) =
    "RemoveAttr ".toList ++ name.loc ++ " @".toList ++ nums p := rfl
theorem debug_move (p q slot) : debug dbg (.move p q slot) =
    "Move ".toList ++ nums p ++ " → ".toList ++ nums q ++ slotText slot := rfl
theorem debug_updateProps (p cs) : debug dbg (.updateProps p cs) =
    "UpdateProps @".toList ++ nums p ++ " (".toList ++ num cs.length ++ " changes)".toList := rfl
theorem debug_opaqueChanged (p s) : debug dbg (.opaqueChanged p s) =
    "OpaqueChanged @".toList ++ nums p ++ " ".toList ++ dbg (s.take 40) := rfl
end

/-! ### What does not occur -/

theorem num_not {c : Char} (hc : c.isDigit = false) (n : Nat) : c ∉ num n := by
  have key : ∀ k n, ∀ d ∈ Json.digits k n, d.isDigit = true := by
    intro k
    induction k with
    | zero => intro n d hd; cases hd
    | succ k ih =>
      intro n d hd
      unfold Json.digits at hd
      split at hd
      · next h =>
        rw [List.mem_singleton.1 hd]
        exact (Json.digit_spec n h).1
      · rcases List.mem_append.1 hd with h | h
        · exact ih _ d h
        · rw [List.mem_singleton.1 h]
          exact (Json.digit_spec _ (Nat.mod_lt _ (by decide))).1
  intro h
  have := key _ _ _ h
  rw [hc] at this
  cases this

theorem nums_not {c : Char} (hc : c.isDigit = false) (h1 : c ∉ "[], ".toList) : ∀ l, c ∉ nums l := by
  have e : "[], ".toList = ['[', ']', ',', ' '] ∧ "[]".toList = ['[', ']'] ∧ "[".toList = ['['] ∧ "]".toList = [']'] ∧
      ", ".toList = [',', ' '] := by decide +kernel
  obtain ⟨e0, e1, e2, e3, e4⟩ := e
  rw [e0] at h1
  simp only [List.mem_cons, List.not_mem_nil, or_false, not_or] at h1
  obtain ⟨a1, a2, a3, a4⟩ := h1
  have ht : ∀ l, c ∉ numsTail l := by
    intro l
    induction l with
    | nil => simp [numsTail, e3, a2]
    | cons n l ih => simp [numsTail, e4, a3, a4, num_not hc n, ih]
  intro l
  cases l with
  | nil => simp [nums, e1, a1, a2]
  | cons n l => simp [nums, e2, a1, num_not hc n, ht l]

theorem slotText_not {c : Char} (hc : c.isDigit = false) (h1 : c ∉ " →slot".toList) (s : Option Nat) : c ∉ slotText s := by
  cases s with
  | none => simp [slotText]
  | some k => simp only [slotText, List.mem_append, not_or]; exact ⟨h1, num_not hc k⟩

theorem countText_not {c : Char} (hc : c.isDigit = false) (h1 : c ∉ " (".toList) {l : Str} (hl : c ∉ l) (n : Nat) :
    c ∉ countText n l := by
  unfold countText
  split
  · simp
  · simp only [List.mem_append, not_or]; exact ⟨⟨h1, num_not hc n⟩, hl⟩

theorem split_at_last {c : Char} {a b r r' : Str} (h1 : c ∉ r) (h2 : c ∉ r') (h : a ++ c :: r = b ++ c :: r') :
    a = b ∧ r = r' := by
  have h' := congrArg List.reverse h
  simp only [List.reverse_append, List.reverse_cons, List.append_assoc, List.singleton_append] at h'
  obtain ⟨e1, e2⟩ := split_at_char (by simpa using h1) (by simpa using h2) h'
  exact ⟨List.reverse_inj.1 e2, List.reverse_inj.1 e1⟩

/-! ### The statement -/

/-- A name of an attribute that is set has no equals sign, which is printed after it. -/
def Plain : Patch → Prop
  | .setAttribute _ name _ => '=' ∉ name.loc
  | _ => True

/-- Two patches that are of the same kind, act at the same place and use the same slot. Names are the same up to
prefix and namespace, texts as far as their first characters are concerned, and the numbers of attributes, of children and
of changes are the same. -/
inductive Alike : Patch → Patch → Prop
  | insertElement (p tag slot) {as as' cs cs'} (ha : as.length = as'.length) (hc : cs.length = cs'.length) :
    Alike (.insertElement p tag as cs slot) (.insertElement p tag as' cs' slot)
  | insertText (p slot) {s s'} (h : s.take 20 = s'.take 20) : Alike (.insertText p s slot) (.insertText p s' slot)
  | insertComment (p slot) {s s'} (h : s.take 20 = s'.take 20) : Alike (.insertComment p s slot) (.insertComment p s' slot)
  | remove (p) : Alike (.remove p) (.remove p)
  | setText (p) {s s'} (h : s.take 20 = s'.take 20) : Alike (.setText p s) (.setText p s')
  | setAttribute (p value) {name name'} (h : name.loc = name'.loc) :
    Alike (.setAttribute p name value) (.setAttribute p name' value)
  | removeAttribute (p) {name name'} (h : name.loc = name'.loc) : Alike (.removeAttribute p name) (.removeAttribute p name')
  | move (p q slot) : Alike (.move p q slot) (.move p q slot)
  | updateProps (p) {cs cs'} (h : cs.length = cs'.length) : Alike (.updateProps p cs) (.updateProps p cs')
  | opaqueChanged (p) {s s'} (h : s.take 40 = s'.take 40) : Alike (.opaqueChanged p s) (.opaqueChanged p s')

theorem lits : "Insert <".toList = ['I', 'n', 's', 'e', 'r', 't', ' ', '<'] ∧
    "Insert text ".toList = ['I', 'n', 's', 'e', 'r', 't', ' ', 't', 'e', 'x', 't', ' '] ∧
    "Insert comment ".toList = ['I', 'n', 's', 'e', 'r', 't', ' ', 'c', 'o', 'm', 'm', 'e', 'n', 't', ' '] ∧
    "Remove @".toList = ['R', 'e', 'm', 'o', 'v', 'e', ' ', '@'] ∧
    "SetText ".toList = ['S', 'e', 't', 'T', 'e', 'x', 't', ' '] ∧
    "SetAttr ".toList = ['S', 'e', 't', 'A', 't', 't', 'r', ' '] ∧
    "RemoveAttr ".toList = ['R', 'e', 'm', 'o', 'v', 'e', 'A', 't', 't', 'r', ' '] ∧
    "Move ".toList = ['M', 'o', 'v', 'e', ' '] ∧
    "UpdateProps @".toList = ['U', 'p', 'd', 'a', 't', 'e', 'P', 'r', 'o', 'p', 's', ' ', '@'] ∧
    "OpaqueChanged @".toList = ['O', 'p', 'a', 'q', 'u', 'e', 'C', 'h', 'a', 'n', 'g', 'e', 'd', ' ', '@'] ∧
    "> @".toList = ['>', ' ', '@'] ∧ " @".toList = [' ', '@'] ∧ "=".toList = ['='] ∧ " (".toList = [' ', '('] := by
  decide +kernel

/-- The kind of a patch. -/
def kind : Patch → Nat
  | .insertElement .. => 0
  | .insertText .. => 1
  | .insertComment .. => 2
  | .remove .. => 3
  | .setText .. => 4
  | .setAttribute .. => 5
  | .removeAttribute .. => 6
  | .move .. => 7
  | .updateProps .. => 8
  | .opaqueChanged .. => 9

/-- The kind of a patch, from what is printed. -/
def kindOf (s : Str) : Nat :=
  if s.getD 0 ' ' = 'M' then 7 else if s.getD 0 ' ' = 'U' then 8 else if s.getD 0 ' ' = 'O' then 9
  else if s.getD 0 ' ' = 'S' then (if s.getD 3 ' ' = 'T' then 4 else 5)
  else if s.getD 0 ' ' = 'R' then (if s.getD 6 ' ' = ' ' then 3 else 6)
  else if s.getD 7 ' ' = '<' then 0 else if s.getD 7 ' ' = 't' then 1 else 2

theorem kindOf_debug (dbg : Str → Str) (P : Patch) : kindOf (debug dbg P) = kind P := by
  obtain ⟨l1, l2, l3, l4, l5, l6, l7, l8, l9, l10, _⟩ := lits
  cases P <;> simp [debug_insertElement, debug_insertText, debug_insertComment, debug_remove, debug_setText, debug_setAttribute,
    debug_removeAttribute, debug_move, debug_updateProps, debug_opaqueChanged,
    kind, kindOf, l1, l2, l3, l4, l5, l6, l7, l8, l9, l10]

theorem kind_eq {dbg : Str → Str} {P Q : Patch} (h : debug dbg P = debug dbg Q) : kind P = kind Q := by
  rw [← kindOf_debug dbg P, h, kindOf_debug]

/-- **C89.** Two patches are printed alike exactly if they are of the same kind, act at the same place with the same slot,
and agree in what is printed of their contents. -/
theorem C89_printed_alike {dbg : Str → Str} (hd : DebugStr dbg) {P Q : Patch} (hP : Plain P) (hQ : Plain Q) :
    debug dbg P = debug dbg Q ↔ Alike P Q := by
  constructor
  · intro h
    have hk := kind_eq h
    obtain ⟨_, _, _, _, _, _, _, _, _, _, l11, l12, l13, l14⟩ := lits
    cases P <;> cases Q <;> first | (exfalso; simp [kind] at hk; done) | skip
    case insertElement.insertElement p tag as cs slot p' tag' as' cs' slot' =>
      simp only [debug_insertElement, l11, List.append_assoc, List.cons_append, List.nil_append] at h
      have hno : ∀ (p : Path) (a c : Nat) (slot : Option Nat), '>' ∉ ' ' :: '@' :: (nums p ++
          (countText a " attrs)".toList ++ (countText c " children)".toList ++ slotText slot))) := by
        intro p a c slot
        have e : '>' ∉ "[], ".toList ∧ '>' ∉ " →slot".toList ∧ '>' ∉ " (".toList ∧ '>' ∉ " attrs)".toList ∧
          '>' ∉ " children)".toList := by decide +kernel
        simp only [List.mem_cons, List.mem_append, not_or]
        exact ⟨by decide, by decide, nums_not (by decide) e.1 p, countText_not (by decide) e.2.2.1 e.2.2.2.1 a,
          countText_not (by decide) e.2.2.1 e.2.2.2.2 c, slotText_not (by decide) e.2.1 slot⟩
      obtain ⟨e1, e2⟩ := split_at_last (hno _ _ _ _) (hno _ _ _ _) (List.append_cancel_left h)
      simp only [List.cons.injEq, true_and] at e2
      obtain ⟨e3, e4⟩ := nums_inj e2
      rw [← List.append_assoc, ← List.append_assoc (countText as'.length _)] at e4
      obtain ⟨e5, e6, e7⟩ := counts_inj e4
      subst e1 e3 e7
      exact .insertElement _ _ _ e5 e6
    case insertText.insertText p s slot p' s' slot' =>
      simp only [debug_insertText, List.append_assoc] at h
      obtain ⟨e1, e2⟩ := hd.back _ _ _ _ (List.append_cancel_left h)
      obtain ⟨e3, e4⟩ := nums_inj (List.append_cancel_left e2)
      have e5 := slotText_inj e4
      subst e3 e5
      exact .insertText _ _ e1
    case insertComment.insertComment p s slot p' s' slot' =>
      simp only [debug_insertComment, List.append_assoc] at h
      obtain ⟨e1, e2⟩ := hd.back _ _ _ _ (List.append_cancel_left h)
      obtain ⟨e3, e4⟩ := nums_inj (List.append_cancel_left e2)
      have e5 := slotText_inj e4
      subst e3 e5
      exact .insertComment _ _ e1
    case remove.remove p p' =>
      simp only [debug_remove] at h
      have := List.append_cancel_left h
      rw [← List.append_nil (nums p), ← List.append_nil (nums p')] at this
      rw [(nums_inj this).1]
      exact .remove _
    case setText.setText p s p' s' =>
      simp only [debug_setText, List.append_assoc] at h
      obtain ⟨e1, e2⟩ := hd.back _ _ _ _ (List.append_cancel_left h)
      have := List.append_cancel_left e2
      rw [← List.append_nil (nums p), ← List.append_nil (nums p')] at this
      rw [(nums_inj this).1]
      exact .setText _ e1
    case setAttribute.setAttribute p name v p' name' v' =>
      simp only [debug_setAttribute, l13, List.append_assoc, List.cons_append, List.nil_append] at h
      obtain ⟨e1, e2⟩ := split_at_char hP hQ (List.append_cancel_left h)
      obtain ⟨e3, e4⟩ := hd.back _ _ _ _ e2
      have := List.append_cancel_left e4
      rw [← List.append_nil (nums p), ← List.append_nil (nums p')] at this
      rw [(nums_inj this).1, e3]
      exact .setAttribute _ _ e1
    case removeAttribute.removeAttribute p name p' name' =>
      simp only [debug_removeAttribute, l12, List.append_assoc, List.cons_append, List.nil_append] at h
      have h := List.append_cancel_left h
      rw [← List.singleton_append, ← List.append_assoc, ← List.singleton_append (x := ' ') (l := '@' :: nums p'),
        ← List.append_assoc name'.loc] at h
      have hno : ∀ p : Path, '@' ∉ nums p := fun p => nums_not (by decide) (by decide +kernel) p
      obtain ⟨e1, e2⟩ := split_at_last (hno _) (hno _) h
      rw [← List.append_nil (nums p), ← List.append_nil (nums p')] at e2
      rw [(nums_inj e2).1]
      exact .removeAttribute _ (List.append_cancel_right e1)
    case move.move p q slot p' q' slot' =>
      simp only [debug_move, List.append_assoc] at h
      obtain ⟨e1, e2⟩ := nums_inj (List.append_cancel_left h)
      obtain ⟨e3, e4⟩ := nums_inj (List.append_cancel_left e2)
      rw [e1, e3, slotText_inj e4]
      exact .move _ _ _
    case updateProps.updateProps p cs p' cs' =>
      simp only [debug_updateProps, List.append_assoc] at h
      obtain ⟨e1, e2⟩ := nums_inj (List.append_cancel_left h)
      have e3 := (num_inj (r := " changes)".toList) (r' := " changes)".toList) (.cons (by decide)) (.cons (by decide))
        (List.append_cancel_left e2)).1
      rw [e1]
      exact .updateProps _ e3
    case opaqueChanged.opaqueChanged p s p' s' =>
      simp only [debug_opaqueChanged, List.append_assoc] at h
      obtain ⟨e1, e2⟩ := nums_inj (List.append_cancel_left h)
      have := List.append_cancel_left e2
      rw [← List.append_nil (dbg _), ← List.append_nil (dbg (s'.take 40))] at this
      rw [e1]
      exact .opaqueChanged _ (hd.back _ _ _ _ this).1
  · intro h
    cases h with
    | insertElement p tag slot ha hc => simp only [debug_insertElement, ha, hc]
    | insertText p slot h => simp only [debug_insertText, h]
    | insertComment p slot h => simp only [debug_insertComment, h]
    | remove p => rfl
    | setText p h => simp only [debug_setText, h]
    | setAttribute p v h => simp only [debug_setAttribute, h]
    | removeAttribute p h => simp only [debug_removeAttribute, h]
    | move p q slot => rfl
    | updateProps p h => simp only [debug_updateProps, h]
    | opaqueChanged p h => simp only [debug_opaqueChanged, h]

/-- A patch that is printed completely: its texts are short, and it has no attributes, children or changes; names of
attributes are without prefix and namespace. -/
def Small : Patch → Prop
  | .insertElement _ _ as cs _ => as = [] ∧ cs = []
  | .insertText _ s _ | .insertComment _ s _ | .setText _ s => s.length ≤ 20
  | .setAttribute _ name _ | .removeAttribute _ name => name.prefix_ = none ∧ name.ns = []
  | .updateProps _ cs => cs = []
  | .opaqueChanged _ s => s.length ≤ 40
  | .remove _ | .move _ _ _ => True

/-- **C89.** Such patches can be told from what is printed. -/
theorem C89_small_determined {dbg : Str → Str} (hd : DebugStr dbg) {P Q : Patch} (hP : Plain P) (hQ : Plain Q)
    (h1 : Small P) (h2 : Small Q) (h : debug dbg P = debug dbg Q) : P = Q := by
  have ht : ∀ {k : Nat} {s s' : Str}, s.length ≤ k → s'.length ≤ k → s.take k = s'.take k → s = s' := by
    intro k s s' a b e
    rwa [List.take_of_length_le a, List.take_of_length_le b] at e
  have hq : ∀ {n n' : QualName}, n.prefix_ = none ∧ n.ns = [] → n'.prefix_ = none ∧ n'.ns = [] → n.loc = n'.loc → n = n' := by
    rintro ⟨_, _, _⟩ ⟨_, _, _⟩ ⟨rfl, rfl⟩ ⟨rfl, rfl⟩ rfl
    rfl
  cases (C89_printed_alike hd hP hQ).1 h with
  | insertElement p tag slot ha hc => rw [h1.1, h1.2, h2.1, h2.2]
  | insertText p slot he => rw [ht h1 h2 he]
  | insertComment p slot he => rw [ht h1 h2 he]
  | remove p => rfl
  | setText p he => rw [ht h1 h2 he]
  | setAttribute p v he =>
    rw [hq h1 h2 he]
  | removeAttribute p he =>
    rw [hq h1 h2 he]
  | move p q slot => rfl
  | updateProps p h =>
    simp only [Small] at h1 h2
    rw [h1, h2]
  | opaqueChanged p he => rw [ht h1 h2 he]

/-- The names in what is printed of a patch have no line feeds. -/
def NamesFit : Patch → Prop
  | .insertElement _ tag _ _ _ => '\n' ∉ tag
  | .setAttribute _ name _ | .removeAttribute _ name => '\n' ∉ name.loc
  | _ => True

/-- **C89.** A patch is printed on one line, whatever its texts are. -/
theorem C89_one_line {dbg : Str → Str} (hd : DebugStr dbg) {P : Patch} (hP : NamesFit P) : '\n' ∉ debug dbg P := by
  have e : ∀ s ∈ ["Insert <", "Insert text ", "Insert comment ", "Remove @", "SetText ", "SetAttr ", "RemoveAttr ", "Move ",
      "UpdateProps @", "OpaqueChanged @", "> @", " @", "=", " (", " → ", " ", " changes)", " attrs)", " children)",
      " →slot"], '\n' ∉ s.toList := by decide +kernel
  simp only [List.mem_cons, List.not_mem_nil, or_false, forall_eq_or_imp, forall_eq] at e
  obtain ⟨a1, a2, a3, a4, a5, a6, a7, a8, a9, a10, a11, a12, a13, a14, a15, a16, a17, a18, a19, a20⟩ := e
  have hd0 : '\n'.isDigit = false := by decide
  have hs := slotText_not hd0 a20
  have hc := fun (n : Nat) (l : Str) (hl : '\n' ∉ l) => countText_not hd0 a14 hl n
  have num_line := num_not hd0
  have nums_line := nums_not hd0 (by decide +kernel)
  cases P <;> simp only [debug_insertElement, debug_insertText, debug_insertComment, debug_remove, debug_setText, debug_setAttribute,
    debug_removeAttribute, debug_move, debug_updateProps, debug_opaqueChanged,
    List.mem_append, not_or]
  · exact ⟨⟨⟨⟨⟨⟨a1, hP⟩, a11⟩, nums_line _⟩, hc _ _ a18⟩, hc _ _ a19⟩, hs _⟩
  · exact ⟨⟨⟨⟨a2, hd.line _⟩, a12⟩, nums_line _⟩, hs _⟩
  · exact ⟨⟨⟨⟨a3, hd.line _⟩, a12⟩, nums_line _⟩, hs _⟩
  · exact ⟨a4, nums_line _⟩
  · exact ⟨⟨⟨a5, hd.line _⟩, a12⟩, nums_line _⟩
  · exact ⟨⟨⟨⟨⟨a6, hP⟩, a13⟩, hd.line _⟩, a12⟩, nums_line _⟩
  · exact ⟨⟨⟨a7, hP⟩, a12⟩, nums_line _⟩
  · exact ⟨⟨⟨⟨a8, nums_line _⟩, a15⟩, nums_line _⟩, hs _⟩
  · exact ⟨⟨⟨⟨a9, nums_line _⟩, a14⟩, num_line _⟩, a17⟩
  · exact ⟨⟨⟨a10, nums_line _⟩, a16⟩, hd.line _⟩

/-! ### Patches of `diff` -/

/-- A patch that is not about a single attribute. -/
def NotAttr : Patch → Prop
  | .setAttribute .. | .removeAttribute .. => False
  | _ => True

theorem NotAttr.plain {P : Patch} (h : NotAttr P) : Plain P := by
  cases P <;> first | trivial | cases h

theorem reparentChildren_notAttr {S S' : Shadow} {n : Nat} {ps : List Patch}
    (h : reparentChildren S n = .ok (S', ps)) : ∀ P ∈ ps, NotAttr P := by
  unfold reparentChildren at h
  split at h
  · cases h
  · next p _ =>
    simp only at h
    generalize (S.arena.children n).zipIdx.reverse = l at h
    generalize Arena.posIn (S.arena.children p) n = pos at h
    suffices ∀ (l : List (Nat × Nat)) (S : Shadow) (out : List Patch), (∀ P ∈ out, NotAttr P) →
        ∀ S' ps, l.foldlM (fun (x : Shadow × List Patch) (ci : Nat × Nat) => do
          let (S, patch) ← reparentChild p pos x.1 ci.2 ci.1
          .ok (S, x.2 ++ [patch])) (S, out) = Except.ok (ε := Err) (S', ps) → ∀ P ∈ ps, NotAttr P from
      this l S [] (by simp) S' ps h
    intro l
    induction l with
    | nil =>
      intro S out ho S' ps h
      cases h; exact ho
    | cons ci l ih =>
      intro S out ho S' ps h
      rw [List.foldlM_cons] at h
      obtain ⟨v, h1, h2⟩ := res_bind h
      obtain ⟨v1, h3, h4⟩ := res_bind h1
      cases h4
      refine ih _ _ ?_ _ _ h2
      intro P hP
      rcases List.mem_append.1 hP with hP | hP
      · exact ho P hP
      · simp only [List.mem_singleton] at hP
        subst hP
        unfold reparentChild at h3
        obtain ⟨u, _, h5⟩ := res_bind h3
        simp only at h5
        split at h5
        · obtain ⟨u', _, h6⟩ := res_bind h5
          cases h6; trivial
        · obtain ⟨u', _, h6⟩ := res_bind h5
          cases h6; trivial

theorem convertOp_notAttr {B : Arena TData} {ins : List Nat} {C C' : Conv} {op : EditOp} {ps : List Patch}
    (h : convertOp B ins C op = .ok (C', ps)) : ∀ P ∈ ps, NotAttr P := by
  cases op with
  | updateProps a b changes =>
    simp only [convertOp, Except.ok.injEq, Prod.mk.injEq] at h
    obtain ⟨_, rfl⟩ := h
    intro P hP; rw [List.mem_singleton] at hP; subst hP; trivial
  | setText a b t =>
    simp only [convertOp, Except.ok.injEq, Prod.mk.injEq] at h
    obtain ⟨_, rfl⟩ := h
    intro P hP; rw [List.mem_singleton] at hP; subst hP; trivial
  | insert b pb pos kind =>
    simp only [convertOp] at h
    obtain ⟨sp, _, h⟩ := res_bind h
    obtain ⟨⟨S, slot⟩, _, h⟩ := res_bind h
    simp only [Except.ok.injEq, Prod.mk.injEq] at h
    obtain ⟨_, rfl⟩ := h
    intro P hP; rw [List.mem_singleton] at hP; subst hP
    cases kind <;> trivial
  | delete a =>
    simp only [convertOp] at h
    obtain ⟨S, _, h⟩ := res_bind h
    simp only [Except.ok.injEq, Prod.mk.injEq] at h
    obtain ⟨_, rfl⟩ := h
    intro P hP; rw [List.mem_singleton] at hP; subst hP; trivial
  | move a b pb pos =>
    simp only [convertOp] at h
    obtain ⟨sp, _, h⟩ := res_bind h
    split at h
    · obtain ⟨⟨S, pre⟩, h1, h⟩ := res_bind h
      obtain ⟨⟨S', slot⟩, _, h⟩ := res_bind h
      simp only [Except.ok.injEq, Prod.mk.injEq] at h
      obtain ⟨_, rfl⟩ := h
      intro P hP
      rcases List.mem_append.1 hP with hP | hP
      · exact reparentChildren_notAttr h1 P hP
      · rw [List.mem_singleton] at hP; subst hP; trivial
    · obtain ⟨⟨S, pre⟩, h1, h⟩ := res_bind h
      simp only [Except.ok.injEq, Prod.mk.injEq] at h1
      obtain ⟨⟨S', slot⟩, _, h⟩ := res_bind h
      simp only [Except.ok.injEq, Prod.mk.injEq] at h
      obtain ⟨_, rfl⟩ := h
      intro P hP
      rw [← h1.2, List.nil_append, List.mem_singleton] at hP
      subst hP; trivial

theorem convertLoop_notAttr {B : Arena TData} {ins : List Nat} (ops : List EditOp) :
    ∀ {C C' : Conv} {ps : List Patch}, convertLoop B ins C ops = .ok (C', ps) → ∀ P ∈ ps, NotAttr P := by
  induction ops with
  | nil => intro C C' ps h; cases h; intro P hP; cases hP
  | cons op ops ih =>
    intro C C' ps h
    obtain ⟨v, h1, h⟩ := res_bind h
    obtain ⟨v', h2, h⟩ := res_bind h
    cases h
    intro P hP
    rcases List.mem_append.1 hP with hP | hP
    · exact convertOp_notAttr h1 P hP
    · exact ih h2 P hP

theorem insertAll_notAttr {D : Arena NodeData} : ∀ {l : List Nat} {pos : Nat} {ps : List Patch},
    insertAllLoop D pos l = .ok ps → ∀ P ∈ ps, NotAttr P
  | [], _, _, h => by cases h; intro P hP; cases hP
  | n :: l, pos, ps, h => by
    simp only [insertAllLoop] at h
    obtain ⟨v, h1, h⟩ := res_bind h
    obtain ⟨v', h2, h⟩ := res_bind h
    cases h
    intro P hP
    rcases List.mem_cons.1 hP with rfl | hP
    · unfold createInsertPatch at h1
      split at h1
      · cases h1; trivial
      · cases h1; trivial
      · cases h1; trivial
      · cases h1
    · exact insertAll_notAttr h2 P hP

/-- **C89.** `diff` never makes patches for single attributes. -/
theorem C89_diff_kinds {H : Type} [DecidableEq H] {hashNode : HKind → Option Str → List H → H} {old new : Document}
    {ps : List Patch} (h : diff hashNode old new = .ok ps) :
    ∀ P ∈ ps, (∀ p name value, P ≠ .setAttribute p name value) ∧ ∀ p name, P ≠ .removeAttribute p name := by
  suffices hk : ∀ P ∈ ps, NotAttr P by
    intro P hP
    have := hk P hP
    exact ⟨fun p n v e => by rw [e] at this; exact this, fun p n e => by rw [e] at this; exact this⟩
  unfold diff at h
  split at h
  · cases h; intro P hP; cases hP
  · exact insertAll_notAttr h
  · cases h
    intro P hP
    obtain ⟨x, _, rfl⟩ := List.mem_map.1 hP
    trivial
  · split at h
    · cases h
    · obtain ⟨qs, h1, h⟩ := res_bind h
      obtain ⟨rs, h2, h⟩ := res_bind h
      cases h
      intro P hP
      rcases List.mem_append.1 hP with hP | hP
      · unfold convertOps at h1
        obtain ⟨S, _, h1⟩ := res_bind h1
        obtain ⟨v, h3, h1⟩ := res_bind h1
        cases h1
        exact convertLoop_notAttr _ h3 P hP
      · unfold opaquePatches at h2
        split at h2
        · cases h2; cases hP
        · obtain ⟨S, _, h2⟩ := res_bind h2
          cases h2
          obtain ⟨c, _, rfl⟩ := List.mem_map.1 hP
          trivial

/-- **C89.** Two lists of patches that `diff` made, printed patch by patch: they are printed alike exactly if they have
the same length and their patches are pairwise alike, whatever the names in them are. -/
theorem C89_lists_alike {H : Type} [DecidableEq H] {hashNode : HKind → Option Str → List H → H} {dbg : Str → Str}
    (hd : DebugStr dbg) {old new old' new' : Document} {ps qs : List Patch} (h : diff hashNode old new = .ok ps)
    (h' : diff hashNode old' new' = .ok qs) : ps.map (debug dbg) = qs.map (debug dbg) ↔ List.Forall₂ Alike ps qs := by
  have key : ∀ {ps : List Patch}, (∀ P ∈ ps, (∀ p name value, P ≠ .setAttribute p name value) ∧
      ∀ p name, P ≠ .removeAttribute p name) → ∀ P ∈ ps, Plain P := by
    intro ps h P hP
    obtain ⟨a, b⟩ := h P hP
    cases P <;> first | trivial | exact absurd rfl (a _ _ _)
  have hp := key (C89_diff_kinds h)
  have hq := key (C89_diff_kinds h')
  clear h h' key
  induction ps generalizing qs with
  | nil => cases qs <;> simp
  | cons P ps ih =>
    cases qs with
    | nil => simp
    | cons Q qs =>
      rw [List.map_cons, List.map_cons, List.cons.injEq, List.forall₂_cons]
      exact and_congr (C89_printed_alike hd (hp P (by simp)) (hq Q (by simp)))
        (ih (qs := qs) (fun P h => hp P (List.mem_cons_of_mem _ h)) (fun Q h => hq Q (List.mem_cons_of_mem _ h)))

/-! ### Concrete cases -/

/-- The hypotheses of `C89_printed_alike` hold for two patches with long texts, which are printed alike. -/
example : debug quote (.insertText [0, 12] "a text of more than twenty characters".toList (some 3)) =
    debug quote (.insertText [0, 12] "a text of more than 20 characters".toList (some 3)) ↔
    Alike (.insertText [0, 12] "a text of more than twenty characters".toList (some 3))
      (.insertText [0, 12] "a text of more than 20 characters".toList (some 3)) :=
  C89_printed_alike debugStr_quote trivial trivial

example : debug quote (.insertElement [0, 12, 3] "li".toList [(⟨none, [], "id".toList⟩, "a".toList)] [.text "x".toList] (some 3)) =
    "Insert <li> @[0, 12, 3] (1 attrs) (1 children) →slot3".toList := by decide +kernel

example : debug quote (.move [0, 1] [2, 0] none) = "Move [0, 1] → [2, 0]".toList ∧
    debug quote (.opaqueChanged [0] "a\n".toList) = "OpaqueChanged @[0] \"a\\n\"".toList := by decide +kernel

/-- **C89** goes no further: what is printed does not determine what a patch does. Two patches that insert elements with
different attributes are printed alike, and so are two that set a text to different values. -/
theorem C89_contents_not_shown (dbg : Str → Str) :
    debug dbg (.insertElement [0, 0] "a".toList [(⟨none, [], "id".toList⟩, "x".toList)] [] none) =
      debug dbg (.insertElement [0, 0] "a".toList [(⟨none, [], "class".toList⟩, "y".toList)] [] none) ∧
    ∃ s s' : Str, s ≠ s' ∧ debug dbg (.setText [0, 0] s) = debug dbg (.setText [0, 0] s') :=
  ⟨rfl, "a text of more than twenty characters".toList, "a text of more than 20 characters".toList, by decide +kernel, by
    have : "a text of more than twenty characters".toList.take 20 = "a text of more than 20 characters".toList.take 20 := by
      decide +kernel
    simp only [debug_setText, this]⟩

/-- The hypotheses of `C89_small_determined` and `C89_one_line` hold for these patches. -/
example : ∀ P ∈ [Patch.insertElement [0, 1] "a".toList [] [] (some 2), .setText [0, 3] "a\nb".toList,
    .setAttribute [1] ⟨none, [], "id".toList⟩ "x".toList, .move [0, 1] [1, 1] none], Plain P ∧ Small P ∧ NamesFit P := by
  have h1 : '=' ∉ "id".toList ∧ '\n' ∉ "id".toList ∧ '\n' ∉ "a".toList ∧ "a\nb".toList.length ≤ 20 := by decide +kernel
  intro P hP
  simp only [List.mem_cons, List.not_mem_nil, or_false] at hP
  rcases hP with rfl | rfl | rfl | rfl
  · exact ⟨trivial, ⟨rfl, rfl⟩, h1.2.2.1⟩
  · exact ⟨trivial, h1.2.2.2, trivial⟩
  · exact ⟨h1.1, ⟨rfl, rfl⟩, h1.2.1⟩
  · exact ⟨trivial, trivial, trivial⟩

/-- The hypothesis of `C89_diff_kinds` and `C89_lists_alike` holds for these documents; this is what is printed. -/
example : (match diff Shape.node (.ofForest [ex "p" [("id", "a")] [.text "x".toList], ex "b" [] []])
      (.ofForest [ex "b" [] [.text "y".toList], ex "p" [("id", "b")] [.text "x".toList]]) with
    | .ok ps => ps.map fun P => String.ofList (debug quote P)
    | .error _ => []) = ["UpdateProps @[0, 0] (1 changes)", "Insert <b> @[0, 0] →slot1",
      "Insert text \"y\" @[0, 0, 0]", "Move [1] → [0, 1] →slot2", "Remove @[2]"] := by decide +kernel

end PatchDebug
end Hotmeal
