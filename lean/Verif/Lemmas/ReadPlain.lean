import Verif.Lemmas.ReadSound
import Verif.Props.Browser

set_option autoImplicit false
set_option linter.unusedSectionVars false

/-!
# The names in whatever the reader reads

Attribute names have no prefix and no namespace and are in lower case.
-/

namespace Hotmeal

/-- The attribute names have no prefix and no namespace and are in lower case. -/
def Attrs.Simple (as : Attrs) : Prop := ∀ kv ∈ as, bareName kv.1 ∧ LowerCase kv.1.loc

namespace Reader

theorem lowerAscii_lower (c : Char) : lowerAscii (toLowerAscii c) = toLowerAscii c := by
  have h : LowerCase [toLowerAscii c] := by
    rw [lowerCase_iff]
    intro d hd
    rw [List.mem_singleton] at hd
    subst hd
    unfold toLowerAscii
    split
    · next h =>
      have hv : Nat.isValidChar (c.toNat + 32) := .inl (by omega)
      have e : (Char.ofNat (c.toNat + 32)).toNat = c.toNat + 32 := by
        rw [Char.ofNat, dif_pos hv]; rfl
      intro hh
      have : (Char.ofNat (c.toNat + 32)).toNat ≤ 90 := hh.2
      omega
    · next h => exact fun hh => h ⟨hh.1, hh.2⟩
  unfold LowerCase at h
  simpa using h

theorem lower_snoc {acc : Str} (h : LowerCase acc) (c : Char) : LowerCase (acc ++ [toLowerAscii c]) := by
  unfold LowerCase at h ⊢
  rw [List.map_append, h, List.map_cons, List.map_nil, lowerAscii_lower]

theorem simple_nil : Attrs.Simple [] := by simp [Attrs.Simple]

theorem simple_addAttr {as : Attrs} (h : as.Simple) {name : Str} (hn : LowerCase name) (v : Str) :
    (addAttr as name v).Simple := by
  unfold addAttr
  split
  · exact h
  · intro kv hkv
    rcases List.mem_append.1 hkv with hkv | hkv
    · exact h kv hkv
    · rw [List.mem_singleton] at hkv
      subst hkv
      exact ⟨⟨rfl, rfl⟩, hn⟩

/-- The names in the tag that is being read. -/
def Lex.Plain : Lex → Prop
  | .beforeAttr _ as | .afterValue _ as => as.Simple
  | .attrName _ as n | .beforeValue _ as n | .value _ as n _ | .valueRef _ as n _ _ => as.Simple ∧ LowerCase n
  | _ => True

/-- The names in what has been read. -/
structure Plainly (s : St) : Prop where
  out : ∀ tag as, .open_ tag as ∈ s.out → as.Simple
  lex : s.lex.Plain

theorem Plainly.withLex {s : St} (h : Plainly s) {l : Lex} (hl : l.Plain) : Plainly { s with lex := l } := ⟨h.out, hl⟩

theorem Plainly.insertChar {s : St} (h : Plainly s) (c : Char) : Plainly (Reader.insertChar s c) := by
  unfold Reader.insertChar
  split
  · exact ⟨h.out, h.lex⟩
  · exact ⟨fun tag as hm => h.out tag as (by simpa using hm), h.lex⟩

theorem Plainly.insertChars {s : St} (h : Plainly s) (t : Str) : Plainly (t.foldl Reader.insertChar s) := by
  induction t generalizing s with
  | nil => exact h
  | cons c t ih => exact ih (h.insertChar c)

theorem Plainly.rawChar {s : St} (h : Plainly s) (k : RawKind) (tag : Str) (c : Char) : Plainly (Reader.rawChar s k tag c) := by
  unfold Reader.rawChar
  split
  · exact h.withLex trivial
  · split
    · exact h.withLex trivial
    · exact (h.insertChar c).withLex trivial

theorem Plainly.insert {s : St} (h : ∀ tag as, .open_ tag as ∈ s.out → as.Simple) (tag : Str) {as : Attrs} (hu : as.Simple) :
    Plainly (Reader.insert s tag as) := by
  unfold Reader.insert
  split
  · refine ⟨?_, trivial⟩
    intro t a hm
    simp only [List.mem_append, List.mem_cons, Ev.open_.injEq, reduceCtorEq, List.not_mem_nil, or_false] at hm
    rcases hm with hm | ⟨_, rfl⟩
    · exact h t a hm
    · exact hu
  · refine ⟨?_, ?_⟩
    · intro t a hm
      simp only [List.mem_append, List.mem_cons, Ev.open_.injEq, List.not_mem_nil, or_false] at hm
      rcases hm with hm | ⟨_, rfl⟩
      · exact h t a hm
      · exact hu
    · show Lex.Plain (match rawKind tag with | some k => .raw k tag | none => .data)
      cases rawKind tag <;> exact trivial

theorem Plainly.onStart {s s' : St} (h : Plainly s) {tag : Str} {as : Attrs} (hu : as.Simple)
    (e : Reader.onStart s tag as = some s') : Plainly s' := by
  unfold Reader.onStart at e
  split at e
  · split at e <;> cases e
    have := Plainly.insert h.out tag hu; exact ⟨this.out, this.lex⟩
  · split at e
    · cases e
      have := Plainly.insert h.out tag hu; exact ⟨this.out, this.lex⟩
    · split at e <;> cases e
      have := Plainly.insert (s := { s with out := s.out ++ [.open_ "head".toList [], .close] }) (by
        intro t a hm
        simp only [List.mem_append, List.mem_cons, Ev.open_.injEq, reduceCtorEq, List.not_mem_nil, or_false] at hm
        rcases hm with hm | ⟨_, rfl⟩
        · exact h.out t a hm
        · exact simple_nil) tag hu
      exact ⟨this.out, this.lex⟩
  · split at e <;> cases e
    exact Plainly.insert h.out tag hu
  · split at e <;> cases e
    have := Plainly.insert h.out tag hu; exact ⟨this.out, this.lex⟩
  · split at e <;> cases e
    exact Plainly.insert h.out tag hu
  · cases e

theorem Plainly.onEnd {s s' : St} (h : Plainly s) {tag : Str} (e : Reader.onEnd s tag = some s') : Plainly s' := by
  have hc : ∀ tag as, .open_ tag as ∈ s.out ++ [.close] → as.Simple := by
    intro t a hm
    exact h.out t a (by simpa using hm)
  unfold Reader.onEnd at e
  split at e
  · split at e <;> cases e
    exact ⟨hc, trivial⟩
  · split at e
    · split at e
      · cases e; exact ⟨h.out, trivial⟩
      · split at e <;> cases e
        exact ⟨hc, trivial⟩
    · cases e
  · split at e <;> cases e
    exact ⟨h.out, trivial⟩
  · cases e

theorem Plainly.onChar {s s' : St} (h : Plainly s) {c : Char} (e : Reader.onChar s c = some s') : Plainly s' := by
  unfold Reader.onChar at e
  split at e
  · split at e <;> cases e; exact h
  · split at e <;> cases e; exact h
  · split at e <;> cases e; exact h
  · split at e <;> cases e; exact h.insertChar c
  · split at e <;> cases e; exact h.insertChar c
  · split at e <;> cases e; exact h.insertChar c
  · cases e

theorem Plainly.onComment {s s' : St} (h : Plainly s) {t : Str} (e : Reader.onComment s t = some s') : Plainly s' := by
  unfold Reader.onComment at e
  split at e <;> cases e <;> exact ⟨fun tag as hm => h.out tag as (by simpa using hm), trivial⟩

theorem Plainly.onDoctype {s s' : St} (h : Plainly s) {t : Str} (e : Reader.onDoctype s t = some s') : Plainly s' := by
  unfold Reader.onDoctype at e
  split at e <;> cases e
  exact ⟨fun tag as hm => h.out tag as (by simpa using hm), trivial⟩

theorem Plainly.step {s s' : St} (h : Plainly s) {c : Char} (e : Reader.step s c = some s') : Plainly s' := by
  have hl := h.lex
  unfold Reader.step at e
  split at e
  · cases e
  · split at e <;> rename_i hlex <;> rw [hlex] at hl <;> simp only [Lex.Plain] at hl
    · split at e
      · cases e; exact h.withLex trivial
      · split at e
        · cases e; exact h.withLex trivial
        · exact h.onChar e
    · split at e
      · obtain ⟨d, _, e⟩ := Option.bind_eq_some_iff.1 e
        exact (Plainly.withLex (l := .data) h trivial).onChar e
      · split at e <;> cases e; exact h.withLex trivial
    · split at e
      · cases e; exact h.withLex trivial
      · split at e
        · cases e; exact h.withLex trivial
        · split at e <;> cases e; exact h.withLex trivial
    · split at e <;> cases e; exact h.withLex trivial
    · split at e
      · cases e; exact h.withLex simple_nil
      · split at e
        · exact h.onStart simple_nil e
        · split at e <;> cases e; exact h.withLex trivial
    · split at e
      · exact h.onEnd e
      · split at e <;> cases e; exact h.withLex trivial
    · split at e
      · cases e; exact h
      · split at e
        · exact h.onStart hl e
        · split at e <;> cases e; exact h.withLex ⟨hl, lower_snoc (acc := []) rfl c⟩
    · split at e
      · cases e; exact h.withLex hl
      · split at e <;> cases e; exact h.withLex ⟨hl.1, lower_snoc hl.2 c⟩
    · split at e <;> cases e; exact h.withLex hl
    · split at e
      · cases e; exact h.withLex (simple_addAttr hl.1 hl.2 _)
      · split at e <;> cases e <;> exact h.withLex hl
    · split at e
      · obtain ⟨d, _, rfl⟩ := Option.map_eq_some_iff.1 e
        exact h.withLex hl
      · split at e <;> cases e; exact h.withLex hl
    · split at e
      · cases e; exact h.withLex hl
      · split at e
        · exact h.onStart hl e
        · cases e
    · simp only at e
      split at e
      · cases e; exact h.withLex trivial
      · split at e
        · cases e; exact h.withLex trivial
        · split at e <;> cases e; exact h.withLex trivial
    · split at e
      · cases e; exact h.withLex trivial
      · split at e <;> cases e; exact h.withLex trivial
    · split at e
      · cases e; exact h.withLex trivial
      · split at e <;> cases e; exact h.withLex trivial
    · split at e <;> cases e <;> exact h.withLex trivial
    · split at e <;> cases e <;> exact h.withLex trivial
    · split at e
      · exact h.onComment e
      · split at e
        · cases e
        · split at e <;> cases e <;> exact h.withLex trivial
    · split at e
      · cases e; exact h
      · split at e <;> cases e; exact h.withLex trivial
    · split at e
      · exact h.onDoctype e
      · split at e <;> cases e; exact h.withLex trivial
    · cases e; exact h.rawChar _ _ _
    · split at e
      · obtain ⟨d, _, rfl⟩ := Option.map_eq_some_iff.1 e
        exact (h.insertChar d).withLex trivial
      · split at e <;> cases e; exact h.withLex trivial
    · split at e
      · cases e; exact h.withLex trivial
      · split at e <;> cases e; exact (h.insertChar '<').rawChar _ _ _
    · split at e
      · cases e; exact h.withLex trivial
      · split at e
        · split at e
          · exact h.onEnd e
          · split at e <;> cases e
            exact (h.insertChars _).rawChar _ _ _
        · cases e; exact (h.insertChars _).rawChar _ _ _

theorem Plainly.run {s s' : St} (h : Plainly s) {t : Str} (e : Reader.run s t = some s') : Plainly s' := by
  induction t generalizing s with
  | nil => cases e; exact h
  | cons c t ih =>
    rw [run_cons] at e
    obtain ⟨s1, e1, e2⟩ := Option.bind_eq_some_iff.1 e
    exact ih (h.step e1) e2

theorem page_plainly {text : Str} {evs : List Ev} (h : page text = some evs) :
    ∀ tag as, .open_ tag as ∈ evs → as.Simple := by
  unfold page at h
  split at h
  · next s e =>
    split at h <;> cases h
    exact (Plainly.run (s := ⟨.data, _, _, false, []⟩) ⟨by simp, trivial⟩ e).out
  · cases h

/-- The attribute names of all nodes have no prefix and no namespace and are in lower case. -/
def AllSimple (A : Arena NodeData) : Prop := ∀ n tag as, (A.data n).kind = .element tag as → as.Simple

theorem AllSimple.add {A : Arena NodeData} (h : AllSimple A) (p : Nat) {d : NodeData}
    (hd : ∀ tag as, d.kind = .element tag as → as.Simple) : AllSimple (A.addChild p d).1 := by
  intro n
  rw [Arena.addChild_data]
  split
  · exact hd
  · exact h n

theorem AllSimple.build1 {σ σ' : Site} (hr : Ready σ) (h : AllSimple σ.1.arena) {ev : Ev}
    (hs : ∀ tag as, ev = .open_ tag as → as.Simple) (e : Reader.build1 σ ev = .ok σ') : AllSimple σ'.1.arena := by
  obtain ⟨S, stk⟩ := σ
  cases ev with
  | open_ tag as =>
    rw [build_open hr.good.arena.wf hr.place.1] at e
    cases e
    exact h.add _ (fun t a e => by cases e; exact hs _ _ rfl)
  | close => cases e; exact h
  | char c =>
    cases e
    show AllSimple (Sink.appendText S.arena _ [c])
    unfold Sink.appendText
    split
    · next l _ =>
      split
      · next old _ =>
        intro n tag as
        simp only [Sink.pushText, Arena.setData, Arena.upd_apply]
        split
        · intro e; cases e
        · exact h n tag as
      · exact h.add _ (fun t a e => by cases e)
    · exact h.add _ (fun t a e => by cases e)
  | comment s =>
    rw [build_comment hr.good.arena.wf hr.place.1] at e
    cases e
    exact h.add _ (fun t a e => by cases e)
  | doctype name => cases e; exact h

theorem AllSimple.build {σ σ' : Site} (hr : Ready σ) (h : AllSimple σ.1.arena) {evs : List Ev}
    (hu : ∀ tag as, .open_ tag as ∈ evs → as.Unique) (hs : ∀ tag as, .open_ tag as ∈ evs → as.Simple)
    (e : Reader.build σ evs = .ok σ') : AllSimple σ'.1.arena := by
  induction evs generalizing σ with
  | nil => cases e; exact h
  | cons ev evs ih =>
    obtain ⟨σ1, e1, h1⟩ := hr.build1 (ev := ev) (fun tag as e => hu tag as (by simp [e]))
    rw [build_cons_of e1] at e
    exact ih h1 (h.build1 hr (fun tag as e => hs tag as (by simp [e])) e1) (fun tag as e => hu tag as (by simp [e]))
      (fun tag as e => hs tag as (by simp [e])) e

/-- Whatever page is read has simple attribute names. -/
theorem readPage_simple {text : Str} {D : Document} (h : readPage text = some D) : AllSimple D.arena := by
  unfold readPage at h
  split at h
  · cases h
  · next evs e =>
    have hr : Ready (Sink.new, []) := ⟨Sink.good_new, by simp⟩
    obtain ⟨σ, e1, h1⟩ := hr.build (page_unique e)
    have := AllSimple.build hr (by
      intro n tag as
      show ((Arena.newNode ⟨0, fun _ => none, fun _ => [], fun _ => (default : NodeData)⟩ ⟨.document, .html⟩).1.data n).kind = _ → _
      rw [Arena.newNode_data]
      split <;> (intro e; cases e)) (page_unique e) (page_plainly e) e1
    rw [e1] at h
    cases h
    exact this

end Reader
end Hotmeal
