import Verif.Model.Json
import Verif.Lemmas.Postcard

set_option autoImplicit false
set_option linter.unusedSectionVars false

/-!
# What is read from JSON that was written (for C82)
-/

namespace Hotmeal.Json

/-! ### Numbers -/

/-- No digit follows. -/
def Ends (rest : Str) : Prop := ∀ c r, rest = c :: r → c.isDigit = false

theorem Ends.nil : Ends [] := fun _ _ h => nomatch h

theorem Ends.cons {c : Char} {r : Str} (h : c.isDigit = false) : Ends (c :: r) := by
  intro d s e
  cases e
  exact h

theorem digit_spec : ∀ n, n < 10 → (digit n).isDigit = true ∧ (digit n).toNat - '0'.toNat = n := by decide +kernel

theorem number_digit {m n : Nat} (h : n < 10) (rest : Str) :
    number m (digit n :: rest) = number (m * 10 + n) rest := by
  obtain ⟨h1, h2⟩ := digit_spec n h
  rw [number, if_pos h1, h2]

theorem number_digits : ∀ k n m rest, n < k →
    ∃ l, number m (digits k n ++ rest) = number (m * 10 ^ l + n) rest := by
  intro k
  induction k with
  | zero => intro n m rest h; omega
  | succ k ih =>
    intro n m rest h
    unfold digits
    by_cases hn : n < 10
    · rw [if_pos hn]
      exact ⟨1, by rw [List.cons_append, List.nil_append, number_digit hn]⟩
    · rw [if_neg hn]
      obtain ⟨l, hl⟩ := ih (n / 10) m (digit (n % 10) :: rest) (by omega)
      refine ⟨l + 1, ?_⟩
      rw [List.append_assoc, List.cons_append, List.nil_append, hl, number_digit (Nat.mod_lt _ (by decide))]
      congr 1
      rw [Nat.pow_succ, Nat.add_mul, ← Nat.mul_assoc]
      omega

theorem number_ends {rest : Str} (h : Ends rest) (n : Nat) : number n rest = (n, rest) := by
  cases rest with
  | nil => rfl
  | cons c r => rw [number, if_neg (by rw [h c r rfl]; decide)]

theorem number_print {n : Nat} {rest : Str} (h : Ends rest) : number 0 (digits (n + 1) n ++ rest) = (n, rest) := by
  obtain ⟨l, hl⟩ := number_digits (n + 1) n 0 rest (by omega)
  rw [hl, Nat.zero_mul, Nat.zero_add, number_ends h]

theorem digits_head : ∀ k n, ∃ c r, digits (k + 1) n = c :: r ∧ c.isDigit = true := by
  intro k
  induction k with
  | zero =>
    intro n
    unfold digits
    split
    · rename_i h; exact ⟨_, _, rfl, (digit_spec n h).1⟩
    · exact ⟨_, _, rfl, (digit_spec _ (Nat.mod_lt _ (by decide))).1⟩
  | succ k ih =>
    intro n
    unfold digits
    split
    · rename_i h; exact ⟨_, _, rfl, (digit_spec n h).1⟩
    · obtain ⟨c, r, e, h⟩ := ih (n / 10)
      exact ⟨c, r ++ [digit (n % 10)], by rw [e]; rfl, h⟩

/-! ### Strings -/

theorem string_plain {c : Char} {r s t : Str} (h1 : c ≠ '"') (h2 : c ≠ '\\') (h3 : ¬ c.val < 0x20)
    (h : string r = some (s, t)) : string (c :: r) = some (c :: s, t) := by
  rw [string.eq_def]
  split
  · rename_i e; cases e
  · rename_i e; cases e; exact absurd rfl h1
  · rename_i e; cases e; exact absurd rfl h2
  · rename_i e; cases e; exact absurd rfl h2
  · rename_i e; cases e; exact absurd rfl h2
  · rename_i e
    cases e
    rw [if_neg h3, h]
    rfl

theorem control_spec : ∀ n : Nat, n < 32 → hex4 '0' '0' (digit (n / 16)) (digit (n % 16)) = some n ∧ n.isValidChar := by
  decide +kernel

theorem string_escape {c : Char} {r s t : Str} (h : string r = some (s, t)) :
    string (escape c ++ r) = some (c :: s, t) := by
  unfold escape
  split
  · rename_i e; subst e
    show (do let x ← simple '"'; let (s, r) ← string r; some (x :: s, r)) = _
    rw [h]; rfl
  split
  · rename_i e; subst e
    show (do let x ← simple '\\'; let (s, r) ← string r; some (x :: s, r)) = _
    rw [h]; rfl
  split
  · rename_i e; subst e
    show (do let x ← simple 'n'; let (s, r) ← string r; some (x :: s, r)) = _
    rw [h]; rfl
  split
  · rename_i e; subst e
    show (do let x ← simple 'r'; let (s, r) ← string r; some (x :: s, r)) = _
    rw [h]; rfl
  split
  · rename_i e; subst e
    show (do let x ← simple 't'; let (s, r) ← string r; some (x :: s, r)) = _
    rw [h]; rfl
  split
  · rename_i hc
    have hn : c.toNat < 32 := hc
    obtain ⟨h1, h2⟩ := control_spec c.toNat hn
    simp only [List.cons_append, List.nil_append]
    rw [string, h1]
    have h3 : ¬ (0xD800 ≤ c.toNat ∧ c.toNat < 0xDC00) := by omega
    have h4 : charOf c.toNat = some c := by
      unfold charOf
      rw [dif_pos h2]
      rfl
    simp only [Option.bind_eq_bind, Option.bind_some, if_neg h3, h4, h]
  · rename_i h1 h2 _ _ _ h3
    exact string_plain h1 h2 h3 h

theorem string_quote (s rest : Str) : string (s.flatMap escape ++ '"' :: rest) = some (s, rest) := by
  induction s with
  | nil => rfl
  | cons c s ih =>
    rw [List.flatMap_cons, List.append_assoc]
    exact string_escape ih

/-! ### Values -/

theorem skip_cons {c : Char} (h : isSpace c = false) (r : Str) : skip (c :: r) = c :: r := by
  unfold skip
  rw [List.dropWhile_cons_of_neg (by rw [h]; decide)]

theorem isSpace_digit {c : Char} (h : c.isDigit = true) : isSpace c = false ∧ c ≠ ']' ∧ c ≠ '}' ∧ c ≠ 'n' ∧ c ≠ '"' ∧
    c ≠ '[' ∧ c ≠ '{' := by
  refine ⟨?_, ?_, ?_, ?_, ?_, ?_, ?_⟩
  · cases hs : isSpace c with
    | false => rfl
    | true =>
      simp only [isSpace, Bool.or_eq_true, decide_eq_true_eq] at hs
      rcases hs with ((rfl | rfl) | rfl) | rfl <;> exact absurd h (by decide)
  all_goals (rintro rfl; exact absurd h (by decide))

theorem print_head (x : Json) : ∃ c r, print x = c :: r ∧ isSpace c = false ∧ c ≠ ']' ∧ c ≠ '}' := by
  cases x with
  | null => exact ⟨_, _, rfl, by decide, by decide, by decide⟩
  | num n =>
    obtain ⟨c, r, e, h⟩ := digits_head n n
    obtain ⟨h1, h2, h3, _⟩ := isSpace_digit h
    exact ⟨c, r, e, h1, h2, h3⟩
  | str s => exact ⟨_, _, rfl, by decide, by decide, by decide⟩
  | arr xs => exact ⟨_, _, rfl, by decide, by decide, by decide⟩
  | obj fs => exact ⟨_, _, rfl, by decide, by decide, by decide⟩

theorem length_print_pos (x : Json) : 0 < (print x).length := by
  obtain ⟨c, r, e, _⟩ := print_head x
  rw [e]; simp

theorem items_array {get : Str → Option (Json × Str)} : ∀ (xs : List Json) (x : Json) (j : Nat) (rest : Str),
    (∀ y ∈ x :: xs, ∀ rest, Ends rest → get (print y ++ rest) = some (y, rest)) → xs.length < j →
    items get ']' j (print x ++ (printMore xs ++ rest)) = some (x :: xs, rest) := by
  intro xs
  induction xs with
  | nil =>
    intro x j rest h hj
    obtain ⟨j, rfl⟩ : ∃ i, j = i + 1 := ⟨j - 1, by omega⟩
    have e : printMore [] ++ rest = ']' :: rest := rfl
    rw [items, e, h x (by simp) _ (Ends.cons (by decide))]
    rfl
  | cons y ys ih =>
    intro x j rest h hj
    obtain ⟨j, rfl⟩ : ∃ i, j = i + 1 := ⟨j - 1, by omega⟩
    have e : printMore (y :: ys) ++ rest = ',' :: (print y ++ (printMore ys ++ rest)) := by
      simp [printMore]
    rw [items, e, h x (by simp) _ (Ends.cons (by decide))]
    show (items get ']' j (print y ++ (printMore ys ++ rest))).bind (fun p => some (x :: p.1, p.2)) = _
    rw [ih y j rest (fun z hz => h z (by simp [List.mem_cons.1 hz])) (by simp at hj; omega)]
    rfl

/-- The members after the first, with their closing brace, as the text of one member and what follows. -/
theorem items_object {get : Str → Option (Json × Str)} : ∀ (fs : List (Str × Json)) (f : Str × Json) (j : Nat)
    (rest : Str), (∀ g ∈ f :: fs, ∀ rest, Ends rest → get (print g.2 ++ rest) = some (g.2, rest)) → fs.length < j →
    items (member get) '}' j (quote f.1 ++ (':' :: (print f.2 ++ (printMoreMembers fs ++ rest)))) =
      some (f :: fs, rest) := by
  have hm : ∀ (f : Str × Json) rest, get (print f.2 ++ rest) = some (f.2, rest) →
      member get (quote f.1 ++ (':' :: (print f.2 ++ rest))) = some (f, rest) := by
    intro f rest h
    have e : quote f.1 ++ (':' :: (print f.2 ++ rest)) =
        '"' :: (f.1.flatMap escape ++ '"' :: (':' :: (print f.2 ++ rest))) := by
      simp [quote]
    rw [e]
    unfold member
    rw [skip_cons (by decide)]
    simp only [string_quote]
    show (match skip (':' :: (print f.2 ++ rest)) with
      | ':' :: r => do
        let (x, r) ← get r
        some ((f.1, x), r)
      | _ => none) = _
    rw [skip_cons (by decide)]
    simp only [h]
    rfl
  intro fs
  induction fs with
  | nil =>
    intro f j rest h hj
    obtain ⟨j, rfl⟩ : ∃ i, j = i + 1 := ⟨j - 1, by omega⟩
    have e : printMoreMembers [] ++ rest = '}' :: rest := rfl
    rw [items, e, hm f _ (h f (by simp) _ (Ends.cons (by decide)))]
    rfl
  | cons g gs ih =>
    intro f j rest h hj
    obtain ⟨j, rfl⟩ : ∃ i, j = i + 1 := ⟨j - 1, by omega⟩
    have e : printMoreMembers (g :: gs) ++ rest =
        ',' :: (quote g.1 ++ (':' :: (print g.2 ++ (printMoreMembers gs ++ rest)))) := by
      obtain ⟨k, x⟩ := g
      simp [printMoreMembers]
    rw [items, e, hm f _ (h f (by simp) _ (Ends.cons (by decide)))]
    show (items (member get) '}' j (quote g.1 ++ (':' :: (print g.2 ++ (printMoreMembers gs ++ rest))))).bind
      (fun p => some (f :: p.1, p.2)) = _
    rw [ih g j rest (fun z hz => h z (by simp [List.mem_cons.1 hz])) (by simp at hj; omega)]
    rfl

theorem length_printMore : ∀ (xs : List Json), xs.length < (printMore xs).length ∧
    ∀ x ∈ xs, (print x).length < (printMore xs).length
  | [] => by simp [printMore]
  | y :: ys => by
    have h := length_printMore ys
    simp only [printMore, List.length_cons, List.length_append, List.mem_cons, forall_eq_or_imp]
    refine ⟨by omega, by omega, fun x hx => ?_⟩
    have := h.2 x hx
    omega

theorem length_printItems (xs : List Json) : (∀ x ∈ xs, (print x).length < (printItems xs).length) ∧
    xs.length ≤ (printItems xs).length := by
  cases xs with
  | nil => simp
  | cons y ys =>
    have h := length_printMore ys
    have := length_print_pos y
    simp only [printItems, List.length_cons, List.length_append, List.mem_cons, forall_eq_or_imp]
    refine ⟨⟨by omega, fun x hx => ?_⟩, by omega⟩
    have := h.2 x hx
    omega

theorem length_printMoreMembers : ∀ (fs : List (Str × Json)), fs.length < (printMoreMembers fs).length ∧
    ∀ f ∈ fs, (print f.2).length < (printMoreMembers fs).length
  | [] => by simp [printMoreMembers]
  | (k, y) :: ys => by
    have h := length_printMoreMembers ys
    simp only [printMoreMembers, List.length_cons, List.length_append, List.mem_cons, forall_eq_or_imp]
    refine ⟨by omega, by omega, fun x hx => ?_⟩
    have := h.2 x hx
    omega

theorem length_printMembers (fs : List (Str × Json)) : (∀ f ∈ fs, (print f.2).length < (printMembers fs).length) ∧
    fs.length ≤ (printMembers fs).length := by
  cases fs with
  | nil => simp
  | cons y ys =>
    obtain ⟨k, y⟩ := y
    have h := length_printMoreMembers ys
    simp only [printMembers, List.length_cons, List.length_append, List.mem_cons, forall_eq_or_imp]
    refine ⟨⟨by omega, fun x hx => ?_⟩, by omega⟩
    have := h.2 x hx
    omega

/-- A value that was printed is read back, whatever follows, except a digit. -/
theorem value_print : ∀ (k : Nat) (x : Json) (rest : Str), (print x).length ≤ k → Ends rest →
    value k (print x ++ rest) = some (x, rest) := by
  intro k
  induction k with
  | zero =>
    intro x rest h
    have := length_print_pos x
    omega
  | succ k ih =>
    intro x rest h hr
    cases x with
    | null => rfl
    | num n =>
      obtain ⟨c, r, e, hc⟩ := digits_head n n
      obtain ⟨h1, _, _, h2, h3, h4, h5⟩ := isSpace_digit hc
      have hn := number_print (n := n) hr
      simp only [print]
      rw [e, List.cons_append] at hn ⊢
      rw [value, skip_cons h1]
      simp only [if_neg h2, if_neg h3, if_neg h4, if_neg h5, if_pos hc, hn]
    | str s =>
      have e : print (.str s) ++ rest = '"' :: (s.flatMap escape ++ '"' :: rest) := by simp [print, quote]
      rw [e, value, skip_cons (by decide)]
      show (string (s.flatMap escape ++ '"' :: rest)).map _ = _
      rw [string_quote]
      rfl
    | arr xs =>
      simp only [print, List.length_cons] at h
      simp only [print, List.cons_append]
      rw [value, skip_cons (by decide)]
      cases xs with
      | nil => rfl
      | cons y ys =>
        obtain ⟨c, r, e, h1, h2, _⟩ := print_head y
        have hl := length_printItems (y :: ys)
        have hi := items_array (get := value k) ys y k rest
          (fun z hz rest hr => ih z rest (by have := hl.1 z hz; omega) hr)
          (by have := hl.2; simp only [List.length_cons] at this; omega)
        have e' : printItems (y :: ys) ++ rest = print y ++ (printMore ys ++ rest) := by simp [printItems]
        rw [e']
        have hs : skip (print y ++ (printMore ys ++ rest)) = c :: (r ++ (printMore ys ++ rest)) := by
          rw [e, List.cons_append, skip_cons h1]
        show (match skip (print y ++ (printMore ys ++ rest)) with
          | ']' :: r => some (Json.arr [], r)
          | _ => (items (value k) ']' k (print y ++ (printMore ys ++ rest))).map fun (p : List Json × Str) => (Json.arr p.1, p.2)) = _
        rw [hs, hi]
        split
        · rename_i e2; cases e2; exact absurd rfl h2
        · rfl
    | obj fs =>
      simp only [print, List.length_cons] at h
      simp only [print, List.cons_append]
      rw [value, skip_cons (by decide)]
      cases fs with
      | nil => rfl
      | cons y ys =>
        have hl := length_printMembers (y :: ys)
        have hi := items_object (get := value k) ys y k rest
          (fun z hz rest hr => ih z.2 rest (by have := hl.1 z hz; omega) hr)
          (by have := hl.2; simp only [List.length_cons] at this; omega)
        have e' : printMembers (y :: ys) ++ rest =
            quote y.1 ++ (':' :: (print y.2 ++ (printMoreMembers ys ++ rest))) := by
          obtain ⟨k, y⟩ := y
          simp [printMembers]
        rw [e']
        have hs : skip (quote y.1 ++ (':' :: (print y.2 ++ (printMoreMembers ys ++ rest)))) =
            quote y.1 ++ (':' :: (print y.2 ++ (printMoreMembers ys ++ rest))) := by
          unfold quote
          rw [List.cons_append, skip_cons (by decide)]
        show (match skip (quote y.1 ++ (':' :: (print y.2 ++ (printMoreMembers ys ++ rest)))) with
          | '}' :: r => some (Json.obj [], r)
          | _ => (items (member (value k)) '}' k
              (quote y.1 ++ (':' :: (print y.2 ++ (printMoreMembers ys ++ rest))))).map fun (p : List (Str × Json) × Str) =>
                (Json.obj p.1, p.2)) = _
        rw [hs, hi]
        split
        · rename_i e2; cases e2
        · rfl

theorem parse_print (x : Json) : parse (print x) = some x := by
  have h := value_print ((print x).length + 1) x [] (by omega) Ends.nil
  rw [List.append_nil] at h
  unfold parse
  rw [h]
  rfl

/-! ### Longer text -/

theorem skip_append {s t : Str} (h : skip s ≠ []) : skip (s ++ t) = skip s ++ t := by
  induction s with
  | nil => exact absurd rfl h
  | cons c s ih =>
    unfold skip at *
    rw [List.cons_append, List.dropWhile_cons, List.dropWhile_cons]
    rw [List.dropWhile_cons] at h
    by_cases hc : isSpace c = true
    · rw [if_pos hc] at h ⊢
      rw [if_pos hc]
      exact ih h
    · rw [if_neg hc, if_neg hc]
      rfl

theorem string_simple {c : Char} {r : Str} (h : c ≠ 'u') :
    string ('\\' :: c :: r) = (simple c).bind fun x => (string r).bind fun p => some (x :: p.1, p.2) := by
  rw [string]
  · rfl
  · intro a b c d r e; exact absurd e h

theorem string_append (s : Str) : ∀ {x r : Str} (t : Str), string s = some (x, r) → string (s ++ t) = some (x, r ++ t) := by
  fun_induction string s with
  | case1 => intro x r t h; cases h
  | case2 r => intro x r' t h; cases h; simp [string]
  | case3 a b c d r ih2 ih1 =>
    intro x r' t h
    rw [List.cons_append, List.cons_append, List.cons_append, List.cons_append, List.cons_append, List.cons_append,
      string]
    cases hn : hex4 a b c d with
    | none => rw [hn] at h; cases h
    | some n =>
      simp only [hn, Option.bind_eq_bind, Option.bind_some] at h ⊢
      by_cases hs : 0xD800 ≤ n ∧ n < 0xDC00
      · rw [if_pos hs] at h ⊢
        split at h
        · rename_i a b c d r
          simp only [List.cons_append]
          cases hm : hex4 a b c d with
          | none => rw [hm] at h; cases h
          | some m =>
            simp only [hm, Option.bind_some] at h ⊢
            by_cases hm' : 0xDC00 ≤ m ∧ m < 0xE000
            · rw [if_pos hm'] at h ⊢
              obtain ⟨y, e1, h⟩ := Option.bind_eq_some_iff.1 h
              obtain ⟨p, e2, h⟩ := Option.bind_eq_some_iff.1 h
              cases h
              rw [e1, Option.bind_some, ih2 t e2]
              rfl
            · rw [if_neg hm'] at h; cases h
        · cases h
      · rw [if_neg hs] at h ⊢
        obtain ⟨y, e1, h⟩ := Option.bind_eq_some_iff.1 h
        obtain ⟨p, e2, h⟩ := Option.bind_eq_some_iff.1 h
        cases h
        rw [e1, Option.bind_some, ih1 t e2]
        rfl
  | case4 c r hu ih =>
    intro x r' t h
    obtain ⟨y, e1, h⟩ := Option.bind_eq_some_iff.1 h
    obtain ⟨p, e2, h⟩ := Option.bind_eq_some_iff.1 h
    cases h
    have : c ≠ 'u' := by rintro rfl; cases e1
    rw [List.cons_append, List.cons_append, string_simple this, e1, Option.bind_some, ih t e2]
    rfl
  | case5 => intro x r t h; cases h
  | case6 => intro x r t h; cases h
  | case7 c r h1 _ h3 h4 h5 ih =>
    intro x r' t h
    obtain ⟨p, e2, h⟩ := Option.bind_eq_some_iff.1 h
    cases h
    have : c ≠ '\\' := by
      intro e
      cases r with
      | nil => exact h4 e rfl
      | cons a r => exact h3 a r e rfl
    exact string_plain h1 this h5 (ih t e2)

theorem number_append : ∀ (s : Str) {n m : Nat} {r : Str} (t : Str), number n s = (m, r) → r ≠ [] →
    number n (s ++ t) = (m, r ++ t)
  | [], _, _, _, _, h, hr => by cases h; exact absurd rfl hr
  | c :: s, n, m, r, t, h, hr => by
    rw [List.cons_append]
    unfold number at h ⊢
    split at h
    · rename_i hc
      rw [if_pos hc]
      exact number_append s t h hr
    · rename_i hc
      rw [if_neg hc]
      cases h
      rfl

/-- Once the value has been read, more text does not change it, unless the text ends inside of a number. -/
def Open {α : Type} (f g : Str → Option (α × Str)) : Prop :=
  ∀ s x r t, f s = some (x, r) → r ≠ [] → g (s ++ t) = some (x, r ++ t)

theorem items_append {α : Type} {f g : Str → Option (α × Str)} (h : Open f g) (close : Char) :
    ∀ (k j : Nat) (s : Str) (xs : List α) (r t : Str), k ≤ j → items f close k s = some (xs, r) →
    items g close j (s ++ t) = some (xs, r ++ t) := by
  intro k
  induction k with
  | zero => intro j s xs r t _ e; cases e
  | succ k ih =>
    intro j s xs r t hj e
    obtain ⟨j, rfl⟩ : ∃ i, j = i + 1 := ⟨j - 1, by omega⟩
    unfold items at e
    obtain ⟨⟨x, r1⟩, e1, e⟩ := Option.bind_eq_some_iff.1 e
    have hs : skip r1 ≠ [] := by intro e'; simp only [e'] at e; cases e
    have hr1 : r1 ≠ [] := by rintro rfl; exact hs rfl
    unfold items
    rw [h _ _ _ t e1 hr1]
    simp only [Option.bind_eq_bind, Option.bind_some] at e ⊢
    rw [skip_append hs]
    cases e2 : skip r1 with
    | nil => exact absurd e2 hs
    | cons c r2 =>
      simp only [e2, List.cons_append] at e ⊢
      by_cases hc : c = ','
      · rw [if_pos hc] at e ⊢
        obtain ⟨⟨ys, r3⟩, e3, e⟩ := Option.bind_eq_some_iff.1 e
        cases e
        rw [ih j r2 ys r3 t (by omega) e3]
        rfl
      · rw [if_neg hc] at e ⊢
        by_cases hc' : c = close
        · rw [if_pos hc'] at e ⊢
          cases e
          rfl
        · rw [if_neg hc'] at e; cases e

theorem open_member {f g : Str → Option (Json × Str)} (h : Open f g) : Open (member f) (member g) := by
  intro s x r t e hr
  unfold member at e
  have hs : skip s ≠ [] := by intro e'; rw [e'] at e; cases e
  unfold member
  rw [skip_append hs]
  split at e
  · rename_i r1 e1
    rw [e1, List.cons_append]
    obtain ⟨⟨k, r2⟩, e2, e⟩ := Option.bind_eq_some_iff.1 e
    have hs : skip r2 ≠ [] := by intro e'; simp only [e'] at e; cases e
    simp only [string_append _ t e2, Option.bind_eq_bind, Option.bind_some] at e ⊢
    rw [skip_append hs]
    split at e
    · rename_i r3 e3
      rw [e3, List.cons_append]
      obtain ⟨⟨y, r4⟩, e4, e⟩ := Option.bind_eq_some_iff.1 e
      cases e
      simp only [h _ _ _ t e4 hr, Option.bind_some]
    · cases e
  · cases e

/-- A value that ends with its text: all but numbers. -/
def Closed : Json → Prop
  | .num _ => False
  | _ => True

theorem value_skip {k : Nat} {s : Str} {p : Json × Str} (h : value k s = some p) : skip s ≠ [] := by
  intro e
  cases k with
  | zero => cases h
  | succ k => unfold value at h; rw [e] at h; cases h

theorem member_skip {f : Str → Option (Json × Str)} {s : Str} {p : (Str × Json) × Str} (h : member f s = some p) :
    skip s ≠ [] := by
  intro e
  unfold member at h
  rw [e] at h
  cases h

theorem items_skip {α : Type} {f : Str → Option (α × Str)} (h : ∀ s p, f s = some p → skip s ≠ []) {close : Char}
    {k : Nat} {s : Str} {p : List α × Str} (e : items f close k s = some p) : skip s ≠ [] := by
  cases k with
  | zero => cases e
  | succ k =>
    unfold items at e
    obtain ⟨q, e1, _⟩ := Option.bind_eq_some_iff.1 e
    exact h s q e1

theorem value_append : ∀ (k j : Nat) (s : Str) (x : Json) (r t : Str), k ≤ j → value k s = some (x, r) →
    (r ≠ [] ∨ Closed x) → value j (s ++ t) = some (x, r ++ t) := by
  intro k
  induction k with
  | zero => intro j s x r t _ e; cases e
  | succ k ih =>
    intro j s x r t hj e hx
    obtain ⟨j, rfl⟩ : ∃ i, j = i + 1 := ⟨j - 1, by omega⟩
    have ho : Open (value k) (value j) := fun s x r t e hr => ih j s x r t (by omega) e (.inl hr)
    unfold value at e
    have hs : skip s ≠ [] := by intro e'; simp only [e'] at e; cases e
    unfold value
    rw [skip_append hs]
    cases e1 : skip s with
    | nil => exact absurd e1 hs
    | cons c r1 =>
      simp only [e1, List.cons_append] at e ⊢
      by_cases h1 : c = 'n'
      · rw [if_pos h1] at e ⊢
        split at e
        · cases e; rfl
        · cases e
      rw [if_neg h1] at e ⊢
      by_cases h2 : c = '"'
      · rw [if_pos h2] at e ⊢
        obtain ⟨⟨y, r2⟩, e2, e⟩ := Option.map_eq_some_iff.1 e
        cases e
        rw [string_append _ t e2]
        rfl
      rw [if_neg h2] at e ⊢
      by_cases h3 : c = '['
      · rw [if_pos h3] at e ⊢
        split at e
        · rename_i r2 e2
          cases e
          rw [skip_append (by rw [e2]; exact List.cons_ne_nil _ _), e2]
          rfl
        · rename_i hn
          obtain ⟨⟨ys, r2⟩, e2, e⟩ := Option.map_eq_some_iff.1 e
          cases e
          have hs := items_skip (fun _ _ => value_skip) e2
          rw [skip_append hs]
          split
          · rename_i r3 e3
            cases e4 : skip r1 with
            | nil => exact absurd e4 hs
            | cons d r4 =>
              rw [e4] at e3
              cases e3
              exact absurd e4 (hn r4)
          · rw [items_append ho ']' k j r1 ys r2 t (by omega) e2]
            rfl
      rw [if_neg h3] at e ⊢
      by_cases h4 : c = '{'
      · rw [if_pos h4] at e ⊢
        split at e
        · rename_i r2 e2
          cases e
          rw [skip_append (by rw [e2]; exact List.cons_ne_nil _ _), e2]
          rfl
        · rename_i hn
          obtain ⟨⟨ys, r2⟩, e2, e⟩ := Option.map_eq_some_iff.1 e
          cases e
          have hs := items_skip (fun _ _ => member_skip) e2
          rw [skip_append hs]
          split
          · rename_i r3 e3
            cases e4 : skip r1 with
            | nil => exact absurd e4 hs
            | cons d r4 =>
              rw [e4] at e3
              cases e3
              exact absurd e4 (hn r4)
          · rw [items_append (open_member ho) '}' k j r1 ys r2 t (by omega) e2]
            rfl
      rw [if_neg h4] at e ⊢
      by_cases h5 : c.isDigit = true
      · rw [if_pos h5] at e ⊢
        have hr : r ≠ [] := by
          cases hx with
          | inl h => exact h
          | inr h => cases e; exact h.elim
        cases e
        have := number_append (n := 0) (c :: r1) t (Prod.eta _).symm hr
        rw [List.cons_append] at this
        rw [this]
      · rw [if_neg h5] at e; cases e

/-- The beginning of the text of an array is not the text of a value. -/
theorem parse_cut {xs : List Json} {b c : Str} (h : print (.arr xs) = b ++ c) (hc : c ≠ []) : parse b = none := by
  unfold parse
  cases e : value (b.length + 1) b with
  | none => rfl
  | some p =>
    obtain ⟨y, r⟩ := p
    exfalso
    have hy : Closed y := by
      cases b with
      | nil => cases e
      | cons d b =>
        have hd : d = '[' := by simp only [print, List.cons_append, List.cons.injEq] at h; exact h.1.symm
        subst hd
        unfold value at e
        have : skip ('[' :: b) = '[' :: b := rfl
        simp only [this, if_neg (show ¬ '[' = 'n' by decide), if_neg (show ¬ '[' = '"' by decide), if_true] at e
        split at e
        · cases e; trivial
        · obtain ⟨_, _, e⟩ := Option.map_eq_some_iff.1 e
          cases e
          trivial
    have h1 := value_append _ ((print (.arr xs)).length + 1) b y r c (by rw [h]; simp) e (.inr hy)
    have h2 := value_print ((print (.arr xs)).length + 1) (.arr xs) [] (by omega) Ends.nil
    rw [h] at h1
    rw [List.append_nil, h, h1] at h2
    have := congrArg (fun o => o.map Prod.snd) h2
    simp only [Option.map_some, Option.some.injEq, List.append_eq_nil_iff] at this
    exact hc this.2

/-! ### Patches -/

open Postcard (Fits)

theorem mapM_map {α β γ : Type} {f : β → Option γ} {g : α → β} {conv : α → γ} : ∀ {xs : List α},
    (∀ x ∈ xs, f (g x) = some (conv x)) → (xs.map g).mapM f = some (xs.map conv) := by
  intro xs
  induction xs with
  | nil => intro _; rfl
  | cons x xs ih =>
    intro h
    rw [List.map_cons, List.mapM_cons, h x (by simp), ih fun y hy => h y (by simp [hy])]
    rfl

theorem toOption_ofOption {α β : Type} {f : Json → Option β} {g : α → Json} {conv : α → β} {o : Option α}
    (hn : ∀ x, g x ≠ .null) (h : ∀ x, o = some x → f (g x) = some (conv x)) :
    toOption f (ofOption g o) = some (o.map conv) := by
  cases o with
  | none => rfl
  | some x =>
    have hx := h x rfl
    simp only [ofOption, Option.map_some]
    unfold toOption
    split
    · rename_i e; exact absurd e (hn x)
    · rw [hx]; rfl

theorem toOption_str (o : Option Str) : toOption toStr (ofOption .str o) = some o := by
  cases o <;> rfl

theorem field_struct {α : Type} (name : String) (f : Json → Option α) (fs : List (String × Json)) :
    field name f (struct fs) = (fs.lookup name).bind f := by
  have : (fs.map fun f => (f.1.toList, f.2)).lookup name.toList = fs.lookup name := by
    induction fs with
    | nil => rfl
    | cons x xs ih =>
      rw [List.map_cons, List.lookup_cons, List.lookup_cons, ih]
      have : (name.toList == x.1.toList) = (name == x.1) := by
        rw [Bool.eq_iff_iff]; simp [String.toList_inj]
      rw [this]
  simp only [field, struct, this]

/-- Looks up the fields and variants named by literals. -/
macro "fields" : tactic => `(tactic| simp only [variant, String.toList_inj, String.reduceEq, if_false, if_true,
  field_struct, List.lookup, String.reduceBEq, beq_self_eq_true, Option.bind_some, toStr])

theorem toName_ofName (q : QualName) : toName (ofName q) = some q.wire := by
  unfold toName ofName
  fields
  rw [toOption_str]
  rfl

theorem toAttr_ofAttr (kv : QualName × Str) : toAttr (ofAttr kv) = some (kv.1.wire, kv.2) := by
  unfold toAttr ofAttr
  fields
  rw [toName_ofName]
  rfl

theorem toAttrs (as : Attrs) : toList toAttr (.arr (as.map ofAttr)) = some as.wire :=
  mapM_map (f := toAttr) (g := ofAttr) (conv := fun kv => (kv.1.wire, kv.2)) fun kv _ => toAttr_ofAttr kv

theorem ofContents_eq : ∀ cs : List InsertContent, ofContents cs = cs.map ofContent
  | [] => rfl
  | c :: cs => by simp [ofContents, ofContents_eq cs]

theorem length_print_arr {x : Json} {xs : List Json} (h : x ∈ xs) : (print x).length < (print (.arr xs)).length := by
  have := (length_printItems xs).1 x h
  simp only [print, List.length_cons]
  omega

theorem length_print_obj {f : Str × Json} {fs : List (Str × Json)} (h : f ∈ fs) :
    (print f.2).length < (print (.obj fs)).length := by
  have := (length_printMembers fs).1 f h
  simp only [print, List.length_cons]
  omega

theorem toContent_ofContent : ∀ (k : Nat) (c : InsertContent), (print (ofContent c)).length ≤ k →
    toContent k (ofContent c) = some c.wire := by
  intro k
  induction k with
  | zero =>
    intro c h
    have := length_print_pos (ofContent c)
    omega
  | succ k ih =>
    intro c h
    cases c with
    | text s =>
      simp only [ofContent, variant]
      unfold toContent
      fields
      rfl
    | comment s =>
      simp only [ofContent, variant]
      unfold toContent
      fields
      rfl
    | element tag attrs cs =>
      have hc : toList (toContent k) (.arr (ofContents cs)) = some (InsertContent.wireL cs) := by
        rw [ofContents_eq, Postcard.wireL_eq]
        refine mapM_map fun c hc => ih c ?_
        have h1 : (print (ofContent c)).length < (print (.arr (ofContents cs))).length :=
          length_print_arr (by rw [ofContents_eq]; exact List.mem_map_of_mem hc)
        have h2 : (print (.arr (ofContents cs))).length < (print (struct [("tag", .str tag),
            ("attrs", .arr (attrs.map ofAttr)), ("children", .arr (ofContents cs))])).length :=
          length_print_obj (f := ("children".toList, .arr (ofContents cs))) (by simp)
        have h3 : (print (struct [("tag", .str tag), ("attrs", .arr (attrs.map ofAttr)),
            ("children", .arr (ofContents cs))])).length < (print (ofContent (.element tag attrs cs))).length := by
          simp only [ofContent]
          exact length_print_obj (f := ("Element".toList, _)) List.mem_cons_self
        omega
      simp only [ofContent, variant]
      unfold toContent
      fields
      show (do
        let tag ← some tag
        let attrs ← toList toAttr (.arr (attrs.map ofAttr))
        let cs ← toList (toContent k) (.arr (ofContents cs))
        some (InsertContent.element tag attrs cs)) = _
      rw [toAttrs, hc]
      rfl

theorem toKey_ofKey (k : PropKey) : toKey (ofKey k) = some k.wire := by
  cases k with
  | text =>
    simp only [ofKey, toKey]
    rfl
  | attr q =>
    simp only [ofKey, variant, toKey, if_true]
    show (toName (ofName q)).map PropKey.attr = _
    rw [toName_ofName]
    rfl

theorem toChange_ofChange (c : PropChange) : toChange (ofChange c) = some ⟨c.name.wire, c.value⟩ := by
  unfold toChange ofChange
  fields
  rw [toKey_ofKey, toOption_str]
  rfl

theorem toU32_num {n : Nat} (h : n < 2 ^ 32) : toU32 (.num n) = some n := by
  simp only [toU32, if_pos h]

theorem toPath_ofPath {q : Path} (h : ∀ i ∈ q, i < 2 ^ 32) : toPath (ofPath q) = some q := by
  have := mapM_map (f := toU32) (g := .num) (conv := id) (xs := q) fun i hi => toU32_num (h i hi)
  rwa [List.map_id] at this

theorem toSlot {o : Option Nat} (h : ∀ s, o = some s → s < 2 ^ 32) :
    toOption toU32 (ofOption .num o) = some o := by
  have := toOption_ofOption (f := toU32) (g := .num) (conv := id) (o := o) (fun _ => nofun)
    fun s hs => toU32_num (h s hs)
  rwa [Option.map_id] at this

theorem toPatch_ofPatch {P : Patch} {k : Nat} (hf : Fits P) (hk : (print (ofPatch P)).length ≤ k) :
    toPatch k (ofPatch P) = some P.wire := by
  obtain ⟨hq, hs⟩ := hf
  cases P with
  | insertElement at_ tag attrs cs slot =>
    have hc : toList (toContent k) (.arr (ofContents cs)) = some (InsertContent.wireL cs) := by
      rw [ofContents_eq, Postcard.wireL_eq]
      refine mapM_map fun c hc => toContent_ofContent k c ?_
      have h1 : (print (ofContent c)).length < (print (.arr (ofContents cs))).length :=
        length_print_arr (by rw [ofContents_eq]; exact List.mem_map_of_mem hc)
      have h2 : (print (.arr (ofContents cs))).length < (print (struct [("at", ofPath at_), ("tag", .str tag),
          ("attrs", .arr (attrs.map ofAttr)), ("children", .arr (ofContents cs)),
          ("detach_to_slot", ofOption .num slot)])).length :=
        length_print_obj (f := ("children".toList, .arr (ofContents cs))) (by simp)
      have h3 : (print (struct [("at", ofPath at_), ("tag", .str tag),
          ("attrs", .arr (attrs.map ofAttr)), ("children", .arr (ofContents cs)),
          ("detach_to_slot", ofOption .num slot)])).length <
          (print (ofPatch (.insertElement at_ tag attrs cs slot))).length := by
        simp only [ofPatch]
        exact length_print_obj (f := ("InsertElement".toList, _)) List.mem_cons_self
      omega
    simp only [ofPatch, toPatch]
    fields
    show (do
      let at_ ← toPath (ofPath at_)
      let tag ← some tag
      let attrs ← toList toAttr (.arr (attrs.map ofAttr))
      let cs ← toList (toContent k) (.arr (ofContents cs))
      let slot ← toOption toU32 (ofOption .num slot)
      some (Patch.insertElement at_ tag attrs cs slot)) = _
    rw [toPath_ofPath (hq at_ (by simp [Patch.paths])), toAttrs, hc, toSlot (o := slot) hs]
    rfl
  | insertText at_ s slot =>
    simp only [ofPatch, toPatch]
    fields
    show (do
      let at_ ← toPath (ofPath at_)
      let s ← some s
      let slot ← toOption toU32 (ofOption .num slot)
      some (Patch.insertText at_ s slot)) = _
    rw [toPath_ofPath (hq at_ (by simp [Patch.paths])), toSlot (o := slot) hs]
    rfl
  | insertComment at_ s slot =>
    simp only [ofPatch, toPatch]
    fields
    show (do
      let at_ ← toPath (ofPath at_)
      let s ← some s
      let slot ← toOption toU32 (ofOption .num slot)
      some (Patch.insertComment at_ s slot)) = _
    rw [toPath_ofPath (hq at_ (by simp [Patch.paths])), toSlot (o := slot) hs]
    rfl
  | remove q =>
    simp only [ofPatch, toPatch]
    fields
    show (do
      let q ← toPath (ofPath q)
      some (Patch.remove q)) = _
    rw [toPath_ofPath (hq q (by simp [Patch.paths]))]
    rfl
  | setText q s =>
    simp only [ofPatch, toPatch]
    fields
    show (do
      let q ← toPath (ofPath q)
      let s ← some s
      some (Patch.setText q s)) = _
    rw [toPath_ofPath (hq q (by simp [Patch.paths]))]
    rfl
  | setAttribute q n v =>
    simp only [ofPatch, toPatch]
    fields
    show (do
      let q ← toPath (ofPath q)
      let n ← toName (ofName n)
      let v ← some v
      some (Patch.setAttribute q n v)) = _
    rw [toPath_ofPath (hq q (by simp [Patch.paths])), toName_ofName]
    rfl
  | removeAttribute q n =>
    simp only [ofPatch, toPatch]
    fields
    show (do
      let q ← toPath (ofPath q)
      let n ← toName (ofName n)
      some (Patch.removeAttribute q n)) = _
    rw [toPath_ofPath (hq q (by simp [Patch.paths])), toName_ofName]
    rfl
  | move a b slot =>
    simp only [ofPatch, toPatch]
    fields
    show (do
      let a ← toPath (ofPath a)
      let b ← toPath (ofPath b)
      let slot ← toOption toU32 (ofOption .num slot)
      some (Patch.move a b slot)) = _
    rw [toPath_ofPath (hq a (by simp [Patch.paths])), toPath_ofPath (hq b (by simp [Patch.paths])), toSlot (o := slot) hs]
    rfl
  | updateProps q ch =>
    simp only [ofPatch, toPatch]
    fields
    show (do
      let q ← toPath (ofPath q)
      let ch ← toList toChange (.arr (ch.map ofChange))
      some (Patch.updateProps q ch)) = _
    rw [toPath_ofPath (hq q (by simp [Patch.paths]))]
    have : toList toChange (.arr (ch.map ofChange)) = some (ch.map fun c => ⟨c.name.wire, c.value⟩) :=
      mapM_map (f := toChange) (g := ofChange) (conv := fun c => PropChange.mk c.name.wire c.value) fun c _ => toChange_ofChange c
    rw [this]
    rfl
  | opaqueChanged q s =>
    simp only [ofPatch, toPatch]
    fields
    show (do
      let q ← toPath (ofPath q)
      let s ← some s
      some (Patch.opaqueChanged q s)) = _
    rw [toPath_ofPath (hq q (by simp [Patch.paths]))]
    rfl

end Hotmeal.Json
