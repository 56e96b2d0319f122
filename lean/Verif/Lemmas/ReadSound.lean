import Verif.Lemmas.ReadPage

set_option autoImplicit false
set_option linter.unusedSectionVars false

/-!
# Whatever the reader reads is a sound document
-/

namespace Hotmeal
namespace Reader

/-! ### The sink -/

/-- The sink is in order and the open elements can have children. -/
structure Ready (σ : Site) : Prop where
  good : σ.1.Good
  ok : ∀ n ∈ σ.2, n < σ.1.arena.next ∧ σ.1.arena.Container n

theorem Ready.place {σ : Site} (h : Ready σ) : σ.2.headD σ.1.document < σ.1.arena.next ∧
    σ.1.arena.Container (σ.2.headD σ.1.document) := by
  obtain ⟨S, stk⟩ := σ
  cases stk with
  | nil => exact ⟨h.good.doc_lt, .inl h.good.doc⟩
  | cons n stk => exact h.ok n (by simp)

theorem Ready.add {S : Sink} {stk : List Nat} (h : Ready (S, stk)) (d : NodeData) (hd : d.kind ≠ .document)
    (hu : ∀ tag as, d.kind = .element tag as → as.Unique) :
    Ready ({ S with arena := (S.arena.addChild (stk.headD S.document) d).1 }, stk) := by
  obtain ⟨h1, h2⟩ := h.place
  have hl := lay_leaf h.good.arena h1 h2 d hd hu
  refine ⟨⟨hl.sound, Nat.lt_of_lt_of_le h.good.doc_lt hl.le, ?_⟩, fun n hn => ?_⟩
  · show ((S.arena.addChild _ d).1.data S.document).kind = _
    rw [hl.data _ h.good.doc_lt]; exact h.good.doc
  · obtain ⟨a, b⟩ := h.ok n hn
    exact ⟨Nat.lt_of_lt_of_le a hl.le, hl.container a b⟩

theorem Ready.text {S : Sink} {stk : List Nat} (h : Ready (S, stk)) (s : Str) :
    Ready ({ S with arena := Sink.appendText S.arena (stk.headD S.document) s }, stk) := by
  unfold Sink.appendText
  split
  · next l hl =>
    cases e : Sink.textOf S.arena l with
    | none => exact h.add ⟨.text s, .html⟩ (by simp) (fun _ _ e => by cases e)
    | some old =>
      have hk : (S.arena.data l).kind = .text old := by
        unfold Sink.textOf at e
        split at e
        · next s' hs => cases e; exact hs
        · cases e
      have hg : Sink.Good { S with arena := Sink.appendText S.arena (stk.headD S.document) s } :=
        h.good.run (c := .append (stk.headD S.document) (.text s)) ⟨h.place.1, h.place.2, trivial⟩ rfl
      have ha : Sink.appendText S.arena (stk.headD S.document) s = Sink.pushText S.arena l old s := by
        unfold Sink.appendText; rw [hl]; simp only [e]
      rw [ha] at hg
      refine ⟨hg, fun n hn => ?_⟩
      obtain ⟨a, b⟩ := h.ok n hn
      refine ⟨a, ?_⟩
      have hne : n ≠ l := by
        rintro rfl
        rcases b with b | ⟨_, _, b⟩ <;> exact absurd (hk.symm.trans b) (by simp)
      show ((Sink.pushText S.arena l old s).data n).kind = _ ∨ ∃ _ _, ((Sink.pushText S.arena l old s).data n).kind = _
      simp only [Sink.pushText, Arena.setData, Arena.upd_apply, if_neg hne]
      exact b
  · exact h.add ⟨.text s, .html⟩ (by simp) (fun _ _ e => by cases e)

theorem Ready.build1 {σ : Site} (h : Ready σ) {ev : Ev} (hu : ∀ tag as, ev = .open_ tag as → as.Unique) :
    ∃ σ', Reader.build1 σ ev = .ok σ' ∧ Ready σ' := by
  obtain ⟨S, stk⟩ := σ
  cases ev with
  | open_ tag as =>
    refine ⟨_, build_open h.good.arena.wf h.place.1 tag as, ?_⟩
    have ha := h.add ⟨.element tag as, .html⟩ (by simp) (fun t a e => by cases e; exact hu _ _ rfl)
    refine ⟨ha.good, fun n hn => ?_⟩
    rcases List.mem_cons.1 hn with rfl | hn
    · constructor
      · show S.arena.next < (S.arena.addChild _ _).1.next
        rw [Arena.addChild_next]; omega
      · right
        refine ⟨tag, as, ?_⟩
        show ((S.arena.addChild _ _).1.data S.arena.next).kind = _
        rw [Arena.addChild_data, if_pos rfl]
    · exact ha.ok n hn
  | close => exact ⟨_, rfl, ⟨h.good, fun n hn => h.ok n (List.mem_of_mem_tail hn)⟩⟩
  | char c => exact ⟨_, rfl, h.text [c]⟩
  | comment s =>
    exact ⟨_, build_comment h.good.arena.wf h.place.1 s, h.add ⟨.comment s, .html⟩ (by simp) (fun _ _ e => by cases e)⟩
  | doctype name => exact ⟨_, rfl, ⟨⟨h.good.arena, h.good.doc_lt, h.good.doc⟩, h.ok⟩⟩

theorem Ready.build {σ : Site} (h : Ready σ) {evs : List Ev} (hu : ∀ tag as, .open_ tag as ∈ evs → as.Unique) :
    ∃ σ', Reader.build σ evs = .ok σ' ∧ Ready σ' := by
  induction evs generalizing σ with
  | nil => exact ⟨σ, rfl, h⟩
  | cons ev evs ih =>
    obtain ⟨σ1, e1, h1⟩ := h.build1 (ev := ev) (fun tag as e => hu tag as (by simp [e]))
    obtain ⟨σ2, e2, h2⟩ := ih h1 (fun tag as e => hu tag as (by simp [e]))
    exact ⟨σ2, by rw [build_cons_of e1, e2], h2⟩

/-! ### The attributes -/

/-- The attributes of the tag that is being read. -/
def _root_.Hotmeal.Reader.Lex.attrs : Lex → Attrs
  | .beforeAttr _ as | .attrName _ as _ | .beforeValue _ as _ | .value _ as _ _ | .valueRef _ as _ _ _ | .afterValue _ as => as
  | _ => []

/-- No element has an attribute twice. -/
structure Fresh (s : St) : Prop where
  out : ∀ tag as, .open_ tag as ∈ s.out → as.Unique
  lex : s.lex.attrs.Unique

theorem unique_nil : Attrs.Unique [] := by simp [Attrs.Unique]

theorem unique_addAttr {as : Attrs} (h : as.Unique) (name v : Str) : (addAttr as name v).Unique := by
  unfold addAttr
  split
  · exact h
  · next hn =>
    unfold Attrs.Unique at h ⊢
    simp only [List.map_append, List.map_cons, List.map_nil, List.nodup_append, h, true_and]
    refine ⟨by simp, ?_⟩
    intro q hq q' hq' e
    simp only [List.mem_cons, List.not_mem_nil, or_false] at hq'
    obtain ⟨kv, h1, h2⟩ := List.mem_map.1 hq
    simp only [List.any_eq_true, decide_eq_true_eq, not_exists, not_and] at hn
    exact hn kv h1 (by rw [h2, e, hq'])

theorem Fresh.withLex {s : St} (h : Fresh s) {l : Lex} (hl : l.attrs.Unique) : Fresh { s with lex := l } := ⟨h.out, hl⟩

theorem Fresh.insertChar {s : St} (h : Fresh s) (c : Char) : Fresh (Reader.insertChar s c) := by
  unfold Reader.insertChar
  split
  · exact ⟨h.out, h.lex⟩
  · exact ⟨fun tag as hm => h.out tag as (by simpa using hm), h.lex⟩

theorem Fresh.insertChars {s : St} (h : Fresh s) (t : Str) : Fresh (t.foldl Reader.insertChar s) := by
  induction t generalizing s with
  | nil => exact h
  | cons c t ih => exact ih (h.insertChar c)

theorem Fresh.rawChar {s : St} (h : Fresh s) (k : RawKind) (tag : Str) (c : Char) : Fresh (Reader.rawChar s k tag c) := by
  unfold Reader.rawChar
  split
  · exact h.withLex unique_nil
  · split
    · exact h.withLex unique_nil
    · exact (h.insertChar c).withLex unique_nil

theorem Fresh.insert {s : St} (h : ∀ tag as, .open_ tag as ∈ s.out → as.Unique) (tag : Str) {as : Attrs} (hu : as.Unique) :
    Fresh (Reader.insert s tag as) := by
  unfold Reader.insert
  split
  · refine ⟨?_, unique_nil⟩
    intro t a hm
    simp only [List.mem_append, List.mem_cons, Ev.open_.injEq, reduceCtorEq, List.not_mem_nil, or_false] at hm
    rcases hm with hm | ⟨_, rfl⟩
    · exact h t a hm
    · exact hu
  · refine ⟨?_, ?_⟩
    · intro t a hm
      simp only [List.mem_append, List.mem_cons, Ev.open_.injEq, List.not_mem_nil, or_false] at hm
      rcases hm with hm | ⟨_, rfl⟩
      · exact h t a hm
      · exact hu
    · show Attrs.Unique (Lex.attrs (match rawKind tag with | some k => .raw k tag | none => .data))
      cases rawKind tag <;> exact unique_nil

theorem Fresh.onStart {s s' : St} (h : Fresh s) {tag : Str} {as : Attrs} (hu : as.Unique)
    (e : Reader.onStart s tag as = some s') : Fresh s' := by
  unfold Reader.onStart at e
  split at e
  · split at e <;> cases e
    have := Fresh.insert h.out tag hu; exact ⟨this.out, this.lex⟩
  · split at e
    · cases e
      have := Fresh.insert h.out tag hu; exact ⟨this.out, this.lex⟩
    · split at e <;> cases e
      have := Fresh.insert (s := { s with out := s.out ++ [.open_ "head".toList [], .close] }) (by
        intro t a hm
        simp only [List.mem_append, List.mem_cons, Ev.open_.injEq, reduceCtorEq, List.not_mem_nil, or_false] at hm
        rcases hm with hm | ⟨_, rfl⟩
        · exact h.out t a hm
        · exact unique_nil) tag hu
      exact ⟨this.out, this.lex⟩
  · split at e <;> cases e
    exact Fresh.insert h.out tag hu
  · split at e <;> cases e
    have := Fresh.insert h.out tag hu; exact ⟨this.out, this.lex⟩
  · split at e <;> cases e
    exact Fresh.insert h.out tag hu
  · cases e

theorem Fresh.onEnd {s s' : St} (h : Fresh s) {tag : Str} (e : Reader.onEnd s tag = some s') : Fresh s' := by
  have hc : ∀ tag as, .open_ tag as ∈ s.out ++ [.close] → as.Unique := by
    intro t a hm
    exact h.out t a (by simpa using hm)
  unfold Reader.onEnd at e
  split at e
  · split at e <;> cases e
    exact ⟨hc, unique_nil⟩
  · split at e
    · split at e
      · cases e; exact ⟨h.out, unique_nil⟩
      · split at e <;> cases e
        exact ⟨hc, unique_nil⟩
    · cases e
  · split at e <;> cases e
    exact ⟨h.out, unique_nil⟩
  · cases e

theorem Fresh.onChar {s s' : St} (h : Fresh s) {c : Char} (e : Reader.onChar s c = some s') : Fresh s' := by
  unfold Reader.onChar at e
  split at e
  · split at e <;> cases e; exact h
  · split at e <;> cases e; exact h
  · split at e <;> cases e; exact h
  · split at e <;> cases e; exact h.insertChar c
  · split at e <;> cases e; exact h.insertChar c
  · split at e <;> cases e; exact h.insertChar c
  · cases e

theorem Fresh.onComment {s s' : St} (h : Fresh s) {t : Str} (e : Reader.onComment s t = some s') : Fresh s' := by
  unfold Reader.onComment at e
  split at e <;> cases e <;> exact ⟨fun tag as hm => h.out tag as (by simpa using hm), unique_nil⟩

theorem Fresh.onDoctype {s s' : St} (h : Fresh s) {t : Str} (e : Reader.onDoctype s t = some s') : Fresh s' := by
  unfold Reader.onDoctype at e
  split at e <;> cases e
  exact ⟨fun tag as hm => h.out tag as (by simpa using hm), unique_nil⟩

theorem Fresh.step {s s' : St} (h : Fresh s) {c : Char} (e : Reader.step s c = some s') : Fresh s' := by
  have hl := h.lex
  unfold Reader.step at e
  split at e
  · cases e
  · split at e <;> rename_i hlex <;> rw [hlex] at hl <;> simp only [Lex.attrs] at hl
    · split at e
      · cases e; exact h.withLex unique_nil
      · split at e
        · cases e; exact h.withLex unique_nil
        · exact h.onChar e
    · split at e
      · obtain ⟨d, _, e⟩ := Option.bind_eq_some_iff.1 e
        exact (Fresh.withLex (l := .data) h unique_nil).onChar e
      · split at e <;> cases e; exact h.withLex unique_nil
    · split at e
      · cases e; exact h.withLex unique_nil
      · split at e
        · cases e; exact h.withLex unique_nil
        · split at e <;> cases e; exact h.withLex unique_nil
    · split at e <;> cases e; exact h.withLex unique_nil
    · split at e
      · cases e; exact h.withLex unique_nil
      · split at e
        · exact h.onStart unique_nil e
        · split at e <;> cases e; exact h.withLex unique_nil
    · split at e
      · exact h.onEnd e
      · split at e <;> cases e; exact h.withLex unique_nil
    · split at e
      · cases e; exact h
      · split at e
        · exact h.onStart hl e
        · split at e <;> cases e; exact h.withLex hl
    · split at e
      · cases e; exact h.withLex hl
      · split at e <;> cases e; exact h.withLex hl
    · split at e <;> cases e; exact h.withLex hl
    · split at e
      · cases e; exact h.withLex (unique_addAttr hl _ _)
      · split at e <;> cases e <;> exact h.withLex hl
    · split at e
      · obtain ⟨d, _, rfl⟩ := Option.map_eq_some_iff.1 e
        exact h.withLex hl
      · split at e <;> cases e; exact h.withLex hl
    · split at e
      · cases e; exact h.withLex hl
      · split at e
        · exact h.onStart hl e
        · cases e
    · simp only at e
      split at e
      · cases e; exact h.withLex unique_nil
      · split at e
        · cases e; exact h.withLex unique_nil
        · split at e <;> cases e; exact h.withLex unique_nil
    · split at e
      · cases e; exact h.withLex unique_nil
      · split at e <;> cases e; exact h.withLex unique_nil
    · split at e
      · cases e; exact h.withLex unique_nil
      · split at e <;> cases e; exact h.withLex unique_nil
    · split at e <;> cases e <;> exact h.withLex unique_nil
    · split at e <;> cases e <;> exact h.withLex unique_nil
    · split at e
      · exact h.onComment e
      · split at e
        · cases e
        · split at e <;> cases e <;> exact h.withLex unique_nil
    · split at e
      · cases e; exact h
      · split at e <;> cases e; exact h.withLex unique_nil
    · split at e
      · exact h.onDoctype e
      · split at e <;> cases e; exact h.withLex unique_nil
    · cases e; exact h.rawChar _ _ _
    · split at e
      · obtain ⟨d, _, rfl⟩ := Option.map_eq_some_iff.1 e
        exact (h.insertChar d).withLex unique_nil
      · split at e <;> cases e; exact h.withLex unique_nil
    · split at e
      · cases e; exact h.withLex unique_nil
      · split at e <;> cases e; exact (h.insertChar '<').rawChar _ _ _
    · split at e
      · cases e; exact h.withLex unique_nil
      · split at e
        · split at e
          · exact h.onEnd e
          · split at e <;> cases e
            exact (h.insertChars _).rawChar _ _ _
        · cases e; exact (h.insertChars _).rawChar _ _ _

theorem Fresh.run {s s' : St} (h : Fresh s) {t : Str} (e : Reader.run s t = some s') : Fresh s' := by
  induction t generalizing s with
  | nil => cases e; exact h
  | cons c t ih =>
    rw [run_cons] at e
    obtain ⟨s1, e1, e2⟩ := Option.bind_eq_some_iff.1 e
    exact ih (h.step e1) e2

theorem page_unique {text : Str} {evs : List Ev} (h : page text = some evs) :
    ∀ tag as, .open_ tag as ∈ evs → as.Unique := by
  unfold page at h
  split at h
  · next s e =>
    split at h <;> cases h
    exact (Fresh.run (s := ⟨.data, _, _, false, []⟩) ⟨by simp, unique_nil⟩ e).out
  · cases h

theorem fragment_unique {text : Str} {evs : List Ev} (h : fragment text = some evs) :
    ∀ tag as, .open_ tag as ∈ evs → as.Unique := by
  unfold fragment at h
  split at h
  · next s e =>
    split at h <;> cases h
    exact (Fresh.run (s := ⟨.data, _, _, false, []⟩) ⟨by simp, unique_nil⟩ e).out
  · cases h

/-- Whatever page is read is a sound document. -/
theorem readPage_sound {text : Str} {D : Document} (h : readPage text = some D) : D.Sound := by
  unfold readPage at h
  split at h
  · cases h
  · next evs e =>
    obtain ⟨σ, e1, h1⟩ := Ready.build (σ := (Sink.new, [])) ⟨Sink.good_new, by simp⟩ (page_unique e)
    rw [e1] at h
    cases h
    exact h1.good.finish

/-- Whatever fragment is read is a sound document. -/
theorem readFragment_sound {text : Str} {D : Document} (h : readFragment text = some D) : D.Sound := by
  unfold readFragment at h
  split at h
  · next evs S e e0 =>
    have hB : fragmentStartB = true := by decide +kernel
    unfold fragmentStartB at hB
    split at hB
    · cases hB
    · next S' hc =>
      simp only [Bool.and_eq_true, decide_eq_true_eq] at hB
      obtain ⟨⟨⟨⟨⟨b1, b2⟩, b3⟩, b4⟩, b5⟩, b6⟩ := hB
      obtain ⟨hsafe, hrun⟩ := Sink.checkAll_spec Sink.good_new hc
      rw [hrun] at e0
      cases e0
      obtain ⟨σ, e1, h1⟩ := Ready.build (σ := (S, [2])) ⟨Sink.good_runAll Sink.good_new hsafe hrun, by
        intro n hn
        simp only [List.mem_cons, List.not_mem_nil, or_false] at hn
        subst hn
        exact ⟨by show 2 < S.arena.next; omega, .inr ⟨_, _, b5⟩⟩⟩ (fragment_unique e)
      rw [e1] at h
      cases h
      exact h1.good.finish
  · cases h

/-! ### Namespaces -/

/-- Every node is in the namespace of HTML. -/
def AllHtml (A : Arena NodeData) : Prop := ∀ n, (A.data n).ns = .html

theorem AllHtml.add {A : Arena NodeData} (h : AllHtml A) (p : Nat) (k : NodeKind) : AllHtml (A.addChild p ⟨k, .html⟩).1 := by
  intro n
  rw [Arena.addChild_data]
  split
  · rfl
  · exact h n

theorem AllHtml.build1 {σ σ' : Site} (hr : Ready σ) (h : AllHtml σ.1.arena) {ev : Ev} (e : Reader.build1 σ ev = .ok σ') :
    AllHtml σ'.1.arena := by
  obtain ⟨S, stk⟩ := σ
  cases ev with
  | open_ tag as =>
    rw [build_open hr.good.arena.wf hr.place.1] at e
    cases e
    exact h.add _ _
  | close => cases e; exact h
  | char c =>
    cases e
    show AllHtml (Sink.appendText S.arena _ [c])
    unfold Sink.appendText
    split
    · next l _ =>
      split
      · next old _ =>
        intro n
        simp only [Sink.pushText, Arena.setData, Arena.upd_apply]
        split
        · exact h l
        · exact h n
      · exact h.add _ _
    · exact h.add _ _
  | comment s =>
    rw [build_comment hr.good.arena.wf hr.place.1] at e
    cases e
    exact h.add _ _
  | doctype name => cases e; exact h

theorem AllHtml.build {σ σ' : Site} (hr : Ready σ) (h : AllHtml σ.1.arena) {evs : List Ev}
    (hu : ∀ tag as, .open_ tag as ∈ evs → as.Unique) (e : Reader.build σ evs = .ok σ') : AllHtml σ'.1.arena := by
  induction evs generalizing σ with
  | nil => cases e; exact h
  | cons ev evs ih =>
    obtain ⟨σ1, e1, h1⟩ := hr.build1 (ev := ev) (fun tag as e => hu tag as (by simp [e]))
    rw [build_cons_of e1] at e
    exact ih h1 (h.build1 hr e1) (fun tag as e => hu tag as (by simp [e])) e

/-- Whatever page is read is in the namespace of HTML. -/
theorem readPage_html {text : Str} {D : Document} (h : readPage text = some D) : AllHtml D.arena := by
  unfold readPage at h
  split at h
  · cases h
  · next evs e =>
    have hr : Ready (Sink.new, []) := ⟨Sink.good_new, by simp⟩
    obtain ⟨σ, e1, h1⟩ := hr.build (page_unique e)
    have := AllHtml.build hr (by
      intro n
      show ((Arena.newNode ⟨0, fun _ => none, fun _ => [], fun _ => (default : NodeData)⟩ ⟨.document, .html⟩).1.data n).ns = _
      rw [Arena.newNode_data]
      split <;> rfl) (page_unique e) e1
    rw [e1] at h
    cases h
    exact this

end Reader
end Hotmeal
