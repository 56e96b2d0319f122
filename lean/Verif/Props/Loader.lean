import Verif.Model.Loader
import Verif.Spec.Script

set_option autoImplicit false
set_option linter.unusedSectionVars false

/-!
# C65: the script tag starts the client with the given arguments
-/

namespace Hotmeal

open Loader Script

/-- The program that the tag is meant to contain: import the glue code, load the binary, start live reload. -/
def intended (wasmJsUrl wasmUrl mountSelector wsUrl : Str) : List Tok :=
  [.word "import".toList, .word "init".toList, .punct ',', .punct '{', .word "start_live_reload".toList, .punct '}',
    .word "from".toList, .str wasmJsUrl, .punct ';',
    .word "await".toList, .word "init".toList, .punct '(', .str wasmUrl, .punct ')', .punct ';',
    .word "start_live_reload".toList, .punct '(', .str wsUrl, .punct ',', .str mountSelector, .punct ')', .punct ';']

/-- No quote, no backslash and no line end. -/
def Quotable (s : Str) : Prop := ∀ c ∈ s, c ≠ '"' ∧ c ≠ '\\' ∧ c ≠ '\n' ∧ c ≠ '\r'

instance (s : Str) : Decidable (Quotable s) := by unfold Quotable; infer_instance

theorem Script.run_str {s : Str} (h : Quotable s) : ∀ (acc : Str) (T : List Tok),
    s.foldlM step ⟨.str acc, T⟩ = some ⟨.str (s.reverse ++ acc), T⟩ := by
  induction s with
  | nil => intro acc T; rfl
  | cons c s ih =>
    intro acc T
    obtain ⟨h1, h2, h3, h4⟩ := h c (by simp)
    have e : step ⟨.str acc, T⟩ c = some ⟨.str (c :: acc), T⟩ := by
      simp [step, h1, h2, h3, h4]
    rw [List.foldlM_cons, e]
    simp only [bind, Option.bind]
    rw [ih (fun d hd => h d (by simp [hd]))]
    simp

theorem Script.content_append {a b : Str} (h : ∀ c ∈ a, c ≠ '<') (hb : content b = some ([], b)) :
    content (a ++ b) = some (a, b) := by
  induction a with
  | nil => exact hb
  | cons c a ih =>
    have hc : c ≠ '<' := h c (by simp)
    have e : endsHere (c :: (a ++ b)) = false := by
      unfold endsHere
      split
      · next heq => injection heq with e _; exact absurd e hc
      · rfl
    rw [List.cons_append, content, if_neg (by rw [e]; simp), ih fun d hd => h d (by simp [hd])]
    rfl

/-- **C65.** The tag that is written for live reload contains one script element and nothing else, and the text of
the script, read as JavaScript, imports the glue code from the given URL, loads the given binary and starts the
client with the given server and selector.

Partial: the arguments must not contain double quotes, backslashes, line ends or `<`; see `C65_violated` and
`C65_injection`. -/
theorem C65_loader_script_partial {wasmJsUrl wasmUrl mountSelector wsUrl : Str}
    (h : ∀ s ∈ [wasmJsUrl, wasmUrl, mountSelector, wsUrl], Quotable s ∧ ∀ c ∈ s, c ≠ '<') :
    ∃ text, loaderScript wasmJsUrl wasmUrl mountSelector wsUrl =
        "<script type=\"module\">".toList ++ text ++ "</script>".toList ∧
      content (text ++ "</script>".toList) = some (text, "</script>".toList) ∧
      lex text = some (intended wasmJsUrl wasmUrl mountSelector wsUrl) := by
  obtain ⟨q1, l1⟩ := h wasmJsUrl (by simp)
  obtain ⟨q2, l2⟩ := h wasmUrl (by simp)
  obtain ⟨q3, l3⟩ := h mountSelector (by simp)
  obtain ⟨q4, l4⟩ := h wsUrl (by simp)
  refine ⟨scriptText wasmJsUrl wasmUrl mountSelector wsUrl, rfl, ?_, ?_⟩
  · have hend : content "</script>".toList = some ([], "</script>".toList) := by decide +kernel
    have k : ∀ t1 t2 t3 t4 t5 : Str, (∀ t ∈ [t1, t2, t3, t4, t5], t.all (· != '<') = true) →
        ∀ c ∈ t1 ++ wasmJsUrl ++ t2 ++ wasmUrl ++ t3 ++ wsUrl ++ t4 ++ mountSelector ++ t5, c ≠ '<' := by
      intro t1 t2 t3 t4 t5 ht c hc
      have ht' : ∀ t ∈ [t1, t2, t3, t4, t5], c ∈ t → c ≠ '<' := by
        intro t hm hct; simpa using List.all_eq_true.1 (ht t hm) c hct
      simp only [List.mem_append] at hc
      rcases hc with (((((((hc | hc) | hc) | hc) | hc) | hc) | hc) | hc) | hc
      · exact ht' t1 (by simp) hc
      · exact l1 c hc
      · exact ht' t2 (by simp) hc
      · exact l2 c hc
      · exact ht' t3 (by simp) hc
      · exact l4 c hc
      · exact ht' t4 (by simp) hc
      · exact l3 c hc
      · exact ht' t5 (by simp) hc
    exact content_append (k _ _ _ _ _ (by decide +kernel)) hend
  · have s1 : "\nimport init, { start_live_reload } from \"".toList.foldlM step ⟨.idle, []⟩ =
        some ⟨.str [], [.word "from".toList, .punct '}', .word "start_live_reload".toList, .punct '{', .punct ',',
          .word "init".toList, .word "import".toList]⟩ := by decide +kernel
    have s2 : ∀ a T, "\";\nawait init(\"".toList.foldlM step ⟨.str a, T⟩ =
        some ⟨.str [], .punct '(' :: .word "init".toList :: .word "await".toList :: .punct ';' :: .str a.reverse :: T⟩ :=
      fun _ _ => rfl
    have s3 : ∀ a T, "\");\nstart_live_reload(\"".toList.foldlM step ⟨.str a, T⟩ =
        some ⟨.str [], .punct '(' :: .word "start_live_reload".toList :: .punct ';' :: .punct ')' :: .str a.reverse :: T⟩ :=
      fun _ _ => rfl
    have s4 : ∀ a T, "\", \"".toList.foldlM step ⟨.str a, T⟩ =
        some ⟨.str [], .punct ',' :: .str a.reverse :: T⟩ := fun _ _ => rfl
    have s5 : ∀ a T, "\");\n".toList.foldlM step ⟨.str a, T⟩ =
        some ⟨.idle, .punct ';' :: .punct ')' :: .str a.reverse :: T⟩ := fun _ _ => rfl
    unfold lex scriptText
    simp only [List.foldlM_append, s1, bind, Option.bind, run_str q1, s2, run_str q2, s3, run_str q4, s4,
      run_str q3, s5, List.append_nil, List.reverse_reverse]
    rfl

/-- The documented arguments meet the hypotheses. -/
example : ∀ s ∈ ["/hotmeal_wasm.js".toList, "/hotmeal_wasm_bg.wasm".toList, "main > #content".toList,
    "ws://localhost:3000/_lr?v=1".toList], Quotable s ∧ ∀ c ∈ s, c ≠ '<' := by decide +kernel

/-! ### The hypotheses are needed -/

namespace Script

/-- Characters of string values, read so far. -/
def Mode.weight : Mode → Nat
  | .str acc => acc.length
  | .esc acc => acc.length
  | _ => 0

/-- Characters of string values in a list of tokens. -/
def strLen : List Tok → Nat
  | [] => 0
  | .str s :: T => s.length + strLen T
  | _ :: T => strLen T

/-- Characters of string values in a state. -/
def St.weight (s : St) : Nat := s.mode.weight + strLen s.toks

theorem start_weight (c : Char) (T : List Tok) : (start c T).weight = strLen T := by
  unfold start
  split
  · simp [St.weight, Mode.weight]
  · split
    · simp [St.weight, Mode.weight]
    · split
      · simp [St.weight, Mode.weight]
      · simp [St.weight, Mode.weight, strLen]

theorem unescape_length {c : Char} {v : Str} (h : unescape c = some v) : v.length ≤ 1 := by
  unfold unescape at h
  repeat' split at h
  all_goals first | (cases h; done) | (injection h with h; subst h; simp)

/-- One character adds at most one character to a string. -/
theorem step_weight {s t : St} {c : Char} (h : step s c = some t) : t.weight ≤ s.weight + 1 := by
  unfold step at h
  split at h
  · cases h; rw [start_weight]; simp only [St.weight]; omega
  · split at h
    · cases h; simp only [St.weight, Mode.weight]; omega
    · cases h; rw [start_weight]; simp only [strLen, St.weight]; omega
  · next acc e =>
    split at h
    · cases h; simp [St.weight, Mode.weight, strLen, e]
    · split at h
      · cases h; simp [St.weight, Mode.weight, e]
      · split at h
        · cases h
        · cases h; simp only [St.weight, Mode.weight, e, List.length_cons]; omega
  · next acc e =>
    cases hu : unescape c with
    | none => rw [hu] at h; cases h
    | some v =>
      rw [hu] at h
      cases h
      have := unescape_length hu
      simp only [St.weight, Mode.weight, e, List.length_append, List.length_reverse]
      omega

theorem run_weight : ∀ (u : Str) {s t : St}, u.foldlM step s = some t → t.weight ≤ s.weight + u.length
  | [], s, t, h => by cases h; simp
  | c :: u, s, t, h => by
    rw [List.foldlM_cons] at h
    cases e : step s c with
    | none => rw [e] at h; cases h
    | some s1 =>
      rw [e] at h
      have h1 := step_weight e
      have h2 := run_weight u (s := s1) (t := t) h
      rw [List.length_cons]; omega

end Script

/-- A text between double quotes is a string literal with this text as its value exactly if the text has no quote,
no backslash and no line end. -/
theorem C65_quoting_needed (s : Str) : lex ('"' :: (s ++ ['"'])) = some [.str s] ↔ Quotable s := by
  constructor
  · intro h
    unfold lex at h
    rw [List.foldlM_cons] at h
    have e0 : step ⟨.idle, []⟩ '"' = some ⟨.str [], []⟩ := rfl
    rw [e0] at h
    simp only [bind, Option.bind] at h
    -- split at the first character that needs an escape
    refine Classical.byContradiction fun hq => ?_
    have hsplit : ∃ p c r, s = p ++ c :: r ∧ Quotable p ∧ ¬ (c ≠ '"' ∧ c ≠ '\\' ∧ c ≠ '\n' ∧ c ≠ '\r') := by
      clear h
      induction s with
      | nil => exact absurd (fun c hc => by cases hc) hq
      | cons c s ih =>
        by_cases hc : c ≠ '"' ∧ c ≠ '\\' ∧ c ≠ '\n' ∧ c ≠ '\r'
        · obtain ⟨p, d, r, e1, e2, e3⟩ := ih fun hs => hq fun d hd => by
            rcases List.mem_cons.1 hd with rfl | hd
            · exact hc
            · exact hs d hd
          exact ⟨c :: p, d, r, by rw [e1]; rfl, fun d hd => by
            rcases List.mem_cons.1 hd with rfl | hd
            · exact hc
            · exact e2 d hd, e3⟩
        · exact ⟨[], c, s, rfl, (fun d hd => by cases hd), hc⟩
    obtain ⟨p, c, r, rfl, hp, hc⟩ := hsplit
    rw [List.append_assoc, List.foldlM_append, run_str hp] at h
    simp only [bind, Option.bind, List.append_nil, List.cons_append] at h
    rw [List.foldlM_cons] at h
    have hstep : ∀ t, step ⟨.str p.reverse, []⟩ c = some t → t.weight = p.length := by
      intro t ht
      simp only [step] at ht
      split at ht
      · cases ht; simp [St.weight, Mode.weight, strLen]
      · split at ht
        · cases ht; simp [St.weight, Mode.weight, strLen]
        · split at ht
          · cases ht
          · next h1 h2 h3 =>
            simp only [beq_iff_eq, Bool.or_eq_true] at h1 h2 h3
            exact absurd ⟨h1, h2, fun e => h3 (.inl e), fun e => h3 (.inr e)⟩ hc
    cases e1 : step ⟨.str p.reverse, []⟩ c with
    | none => rw [e1] at h; cases h
    | some t =>
      have hw := hstep t e1
      rw [e1] at h
      simp only [bind, Option.bind] at h
      rw [List.foldlM_append] at h
      cases e2 : r.foldlM step t with
      | none => rw [e2] at h; cases h
      | some t2 =>
        have hw2 := run_weight r e2
        rw [e2] at h
        simp only [bind, Option.bind, List.foldlM_cons, List.foldlM_nil] at h
        -- the last quote
        cases e3 : step t2 '"' with
        | none => rw [e3] at h; cases h
        | some t3 =>
          rw [e3] at h
          simp only [pure] at h
          obtain ⟨m2, T2⟩ := t2
          have hfin : strLen t3.toks ≤ St.weight ⟨m2, T2⟩ ∧ t3.mode = .idle ∨ ∃ a, t3.mode = .str a := by
            cases m2 with
            | idle => cases e3; exact .inr ⟨[], rfl⟩
            | word a => cases e3; exact .inr ⟨[], rfl⟩
            | str a => cases e3; exact .inl ⟨by simp [St.weight, Mode.weight, strLen], rfl⟩
            | esc a => cases e3; exact .inr ⟨_, rfl⟩
          rcases hfin with ⟨hl, hm⟩ | ⟨a, hm⟩
          · rw [hm] at h
            simp only [Option.some.injEq] at h
            have : t3.toks = [.str (p ++ c :: r)] := by
              have := congrArg List.reverse h
              simpa using this
            rw [this] at hl
            simp only [strLen, List.length_append, List.length_cons] at hl
            omega
          · rw [hm] at h; cases h
  · intro h
    unfold lex
    rw [List.foldlM_cons]
    have e0 : step ⟨.idle, []⟩ '"' = some ⟨.str [], []⟩ := rfl
    rw [e0]
    simp only [bind, Option.bind]
    rw [List.foldlM_append, run_str h]
    simp only [bind, Option.bind, List.foldlM_cons, List.foldlM_nil, List.append_nil]
    have e1 : step ⟨.str s.reverse, []⟩ '"' = some ⟨.idle, [.str s.reverse.reverse]⟩ := rfl
    rw [e1, List.reverse_reverse]
    rfl

/-- **C65, violated**: with an attribute selector the text of the script is not a program. -/
theorem C65_violated : ∃ sel : Str, sel = "[data-app=\"main\"]".toList ∧
    lex (scriptText "/a.js".toList "/a.wasm".toList sel "ws://h/".toList) ≠
      some (intended "/a.js".toList "/a.wasm".toList sel "ws://h/".toList) :=
  ⟨_, rfl, by decide +kernel⟩

/-- **C65, violated**: a URL can bring in another call, and can end the script element. -/
theorem C65_injection :
    (∃ ws : Str, lex (scriptText "/a.js".toList "/a.wasm".toList "body".toList ws) =
      some (intended "/a.js".toList "/a.wasm".toList "b".toList "ws://h/".toList ++
        [.word "alert".toList, .punct '(', .str [], .punct ',', .str "body".toList, .punct ')', .punct ';'])) ∧
    ∃ ws : Str, (content (scriptText "/a.js".toList "/a.wasm".toList "body".toList ws ++ "</script>".toList)).map
      (·.2) = some "</script><p>x\", \"body\");\n</script>".toList :=
  ⟨⟨"ws://h/\", \"b\"); alert(\"".toList, by decide +kernel⟩, "</script><p>x".toList, by decide +kernel⟩

end Hotmeal
