import Verif.Props.SinkNames
import Verif.Props.Parse

/-! # C94: what the parser delivers is in the document, once, and nothing else -/

set_option autoImplicit false
set_option linter.unusedSectionVars false

namespace Hotmeal
namespace Sink

/-- The text that a call delivers. -/
def Call.delivered : Call → Str
  | .append _ (.text s) => s
  | .appendBeforeSibling _ (.text s) => s
  | .appendBasedOnParent _ _ (.text s) => s
  | _ => []

/-- The text of a node, if it is a text. -/
def textAt (A : Arena NodeData) (n : Nat) : Str :=
  match (A.data n).kind with
  | .text s => s
  | _ => []

/-- The texts of all text nodes, one after the other in the order in which the nodes were made. -/
def allText (A : Arena NodeData) : Str := (List.range A.next).flatMap (textAt A)

theorem flatMap_same {f g : Nat → Str} : ∀ {l : List Nat}, (∀ n ∈ l, f n = g n) → l.flatMap f = l.flatMap g
  | [], _ => rfl
  | n :: l, h => by
    rw [List.flatMap_cons, List.flatMap_cons, h n (by simp), flatMap_same fun m hm => h m (by simp [hm])]

theorem allText_same {A B : Arena NodeData} (hn : B.next = A.next) (hd : B.data = A.data) : allText B = allText A := by
  unfold allText textAt
  rw [hn, hd]

theorem allText_newNode (A : Arena NodeData) (d : NodeData) :
    allText (A.newNode d).1 = allText A ++ (match d.kind with | .text s => s | _ => []) := by
  unfold allText
  rw [Arena.newNode_next, List.range_succ, List.flatMap_append, List.flatMap_singleton]
  congr 1
  · refine flatMap_same fun n hn => ?_
    have : n ≠ A.next := Nat.ne_of_lt (List.mem_range.1 hn)
    unfold textAt
    rw [Arena.newNode_data, if_neg this]
  · unfold textAt
    rw [Arena.newNode_data, if_pos rfl]

theorem perm_grown {f g : Nat → Str} {n : Nat} {s : Str} (hn : g n = f n ++ s) (ho : ∀ m, m ≠ n → g m = f m)
    {l : List Nat} (hl : l.Nodup) (hm : n ∈ l) : (l.flatMap g).Perm (l.flatMap f ++ s) := by
  obtain ⟨pre, post, rfl⟩ := List.append_of_mem hm
  have h1 : n ∉ pre := fun hm => (List.nodup_append.1 hl).2.2 n hm n (by simp) rfl
  have h2 : n ∉ post := (List.nodup_cons.1 (List.nodup_append.1 hl).2.1).1
  have e : ∀ l : List Nat, n ∉ l → l.flatMap g = l.flatMap f := fun l hl =>
    flatMap_same fun m hm => ho m (fun e => hl (e ▸ hm))
  simp only [List.flatMap_append, List.flatMap_cons, hn, e pre h1, e post h2, List.append_assoc]
  exact (List.perm_append_comm.append_left _).append_left _

theorem allText_push {A : Arena NodeData} {n : Nat} {old : Str} (s : Str) (h : textOf A n = some old) (hn : n < A.next) :
    (allText (pushText A n old s)).Perm (allText A ++ s) := by
  have hk := textOf_some.1 h
  refine perm_grown (n := n) ?_ (fun m hm => ?_) List.nodup_range (List.mem_range.2 hn)
  · unfold textAt pushText
    simp [Arena.setData, hk]
  · unfold textAt pushText
    simp [Arena.setData, Arena.upd_ne _ _ hm]

theorem allText_append {A B : Arena NodeData} {p c : Nat} (h : A.append p c = .ok B) : allText B = allText A := by
  unfold Arena.append at h
  split at h
  · cases h
  · cases h
    exact allText_same (Arena.detach_next A c) (Arena.detach_data A c)

theorem allText_insertBefore {A B : Arena NodeData} {s c : Nat} (h : A.insertBefore s c = .ok B) :
    allText B = allText A := by
  have hd : allText (A.detach c) = allText A := allText_same (Arena.detach_next A c) (Arena.detach_data A c)
  unfold Arena.insertBefore at h
  split at h
  · cases h
  · simp only at h
    split at h
    · cases h; exact hd
    · split at h
      · cases h
      · cases h; exact hd

theorem allText_addChild (A : Arena NodeData) (p : Nat) (s : Str) :
    allText (A.addChild p ⟨.text s, .html⟩).1 = allText A ++ s := by
  rw [← allText_newNode A ⟨.text s, .html⟩]
  exact allText_same (Arena.detach_next _ _) (Arena.detach_data _ _)

theorem allText_appendText {A : Arena NodeData} (h : A.WF) (p : Nat) (s : Str) :
    (allText (appendText A p s)).Perm (allText A ++ s) := by
  unfold appendText
  split
  · next l hl =>
    split
    · next old ho =>
      exact allText_push s ho (h.lt_of_parent l p ((h.mem_iff l p).1 (List.mem_of_getLast? hl))).1
    · rw [allText_addChild]
  · rw [allText_addChild]

theorem allText_textBefore {A B : Arena NodeData} (hA : A.WF) {sib : Nat} {s : Str} (h : textBefore A sib s = .ok B) :
    (allText B).Perm (allText A ++ s) := by
  unfold textBefore at h
  split at h
  · next l old hb =>
    cases h
    obtain ⟨l', hl, hm⟩ := Option.bind_eq_some_iff.1 hb
    obtain ⟨o', ho, e⟩ := Option.map_eq_some_iff.1 hm
    cases e
    refine allText_push s ho ?_
    unfold prevSibling at hl
    split at hl
    · cases hl
    · next p hp =>
      split at hl
      · cases hl
      · next i hi =>
        exact (hA.lt_of_parent l p ((hA.mem_iff l p).1 (List.mem_of_getElem? hl))).1
  · have e := allText_newNode A ⟨.text s, .html⟩
    rw [allText_insertBefore h]
    exact e ▸ List.Perm.refl _

theorem text_append_call {S S' : Sink} (hA : S.arena.WF) {p : Nat} {c : NodeOrText} (h : S.append p c = .ok S') :
    (allText S'.arena).Perm (allText S.arena ++ (match c with | .text s => s | .node _ => [])) := by
  cases c with
  | node n =>
    obtain ⟨A, e, h⟩ := res_bind h
    cases h
    rw [List.append_nil, allText_append e]
  | text s => cases h; exact allText_appendText hA p s

theorem text_before_call {S S' : Sink} (hA : S.arena.WF) {sib : Nat} {c : NodeOrText}
    (h : S.appendBeforeSibling sib c = .ok S') :
    (allText S'.arena).Perm (allText S.arena ++ (match c with | .text s => s | .node _ => [])) := by
  cases c with
  | node n =>
    obtain ⟨A, e, h⟩ := res_bind h
    cases h
    rw [List.append_nil, allText_insertBefore e]
  | text s =>
    obtain ⟨A, e, h⟩ := res_bind h
    cases h
    exact allText_textBefore hA e

/-- One call adds the text it delivers to the texts of all nodes. -/
theorem text_run {S S' : Sink} (hA : S.arena.WF) {c : Call} (h : S.run c = .ok S') :
    (allText S'.arena).Perm (allText S.arena ++ c.delivered) := by
  have same : ∀ {B : Arena NodeData}, allText B = allText S.arena → (allText B).Perm (allText S.arena ++ []) := by
    intro B e
    rw [List.append_nil, e]
  cases c with
  | createElement t ns a =>
    cases h
    exact same (by show allText (S.arena.newNode _).1 = _; rw [allText_newNode, List.append_nil])
  | createComment s =>
    cases h
    exact same (by show allText (S.arena.newNode _).1 = _; rw [allText_newNode, List.append_nil])
  | createPi a b =>
    cases h
    exact same (by show allText (S.arena.newNode _).1 = _; rw [allText_newNode, List.append_nil])
  | append p c => have h : S.append p c = .ok S' := h; cases c <;> exact text_append_call hA h
  | appendBeforeSibling sib c => have h : S.appendBeforeSibling sib c = .ok S' := h; cases c <;> exact text_before_call hA h
  | appendBasedOnParent e p c =>
    simp only [run, appendBasedOnParent] at h
    split at h
    · cases c <;> exact text_before_call hA h
    · cases c <;> exact text_append_call hA h
  | appendDoctype n => cases h; exact same rfl
  | addAttrsIfMissing n a =>
    cases h
    refine same ?_
    unfold addAttrsIfMissing
    split
    · next tag old ns hd =>
      refine flatMap_same fun m _ => ?_
      unfold textAt
      by_cases e : m = n
      · subst e
        simp [Arena.setData, hd]
      · simp [Arena.setData, Arena.upd_ne _ _ e]
    · rfl
  | removeFromParent n =>
    cases h
    exact same (allText_same (Arena.detach_next _ _) (Arena.detach_data _ _))
  | reparentChildren n p =>
    obtain ⟨A, e, h⟩ := res_bind h
    cases h
    refine same ?_
    have : ∀ (l : List Nat) (A B : Arena NodeData),
        l.foldlM (fun A c => (A.detach c).append p c) A = .ok B → allText B = allText A := by
      intro l
      induction l with
      | nil => intro A B h; cases h; rfl
      | cons c l ih =>
        intro A B h
        rw [List.foldlM_cons] at h
        obtain ⟨A1, e1, h⟩ := res_bind h
        rw [ih A1 B h, allText_append e1]
        exact allText_same (Arena.detach_next _ _) (Arena.detach_data _ _)
    exact this _ _ _ e

/-- **C94.** No text is lost and none is there twice: the texts of all nodes together are made of the characters that the
parser has delivered. -/
theorem C94_text_kept (cs : List Call) (hs : Sink.new.SafeAll cs) {S : Sink} (h : Sink.new.runAll cs = .ok S) :
    (allText S.arena).Perm (cs.flatMap Call.delivered) := by
  have : ∀ (cs : List Call) (S0 : Sink), S0.Good → S0.SafeAll cs → S0.runAll cs = .ok S →
      (allText S.arena).Perm (allText S0.arena ++ cs.flatMap Call.delivered) := by
    intro cs
    induction cs with
    | nil => intro S0 _ _ h; cases h; rw [List.flatMap_nil, List.append_nil]
    | cons c cs ih =>
      intro S0 hg hs h
      unfold runAll at h
      rw [List.foldlM_cons] at h
      obtain ⟨S1, e1, h⟩ := res_bind h
      have hs' : S0.Safe c ∧ ∀ S1, S0.run c = .ok S1 → S1.SafeAll cs := by
        simpa [SafeAll] using hs
      have h1 := ih S1 (hg.run hs'.1 e1) (hs'.2 S1 e1) h
      rw [List.flatMap_cons, ← List.append_assoc]
      exact h1.trans ((text_run hg.arena.wf e1).append_right _)
  have := this cs Sink.new good_new hs h
  rwa [show allText Sink.new.arena = [] from rfl, List.nil_append] at this

/-- The data of a node come from these calls: an element from the call that created it, with attributes from there and from
calls for late attributes; a comment from the call that created it, or it is empty and stands for a processing instruction; a
text from delivered texts, one after the other. -/
inductive From (cs : List Call) : NodeData → Prop
  | element (tag : Str) (ns : Ns) (attrs more : Attrs) (h : Call.createElement tag ns attrs ∈ cs)
    (hm : ∀ kv ∈ more, ∃ n a, Call.addAttrsIfMissing n a ∈ cs ∧ kv ∈ a) : From cs ⟨.element tag (attrs ++ more), ns⟩
  | comment (s : Str) (h : Call.createComment s ∈ cs) : From cs ⟨.comment s, .html⟩
  | pi (a b : Str) (h : Call.createPi a b ∈ cs) : From cs ⟨.comment [], .html⟩
  | text (parts : List Str) (h : ∀ s ∈ parts, ∃ c ∈ cs, s = c.delivered) : From cs ⟨.text parts.flatten, .html⟩

/-- All nodes but the document node come from these calls. -/
def AllFrom (cs : List Call) (A : Arena NodeData) : Prop := ∀ n, 0 < n → n < A.next → From cs (A.data n)

theorem AllFrom.same {cs : List Call} {A B : Arena NodeData} (h : AllFrom cs A) (hn : B.next = A.next)
    (hd : B.data = A.data) : AllFrom cs B := by
  intro n h0 h1
  rw [hd]
  exact h n h0 (hn ▸ h1)

theorem AllFrom.newNode {cs : List Call} {A : Arena NodeData} (h : AllFrom cs A) {d : NodeData} (hd : From cs d) :
    AllFrom cs (A.newNode d).1 := by
  intro n h0 h1
  rw [Arena.newNode_data]
  split
  · exact hd
  · next hne =>
    rw [Arena.newNode_next] at h1
    exact h n h0 (by omega)

theorem from_text {cs : List Call} {c : Call} (hc : c ∈ cs) : From cs ⟨.text c.delivered, .html⟩ := by
  have := From.text [c.delivered] (fun s hs => ⟨c, hc, List.mem_singleton.1 hs⟩)
  rwa [List.flatten_cons, List.flatten_nil, List.append_nil] at this

theorem AllFrom.push {cs : List Call} {A : Arena NodeData} (h : AllFrom cs A) {n : Nat} {old : Str} {c : Call} (hc : c ∈ cs)
    (ho : textOf A n = some old) : AllFrom cs (pushText A n old c.delivered) := by
  intro m h0 h1
  show From cs (Arena.upd A.data n _ m)
  rw [Arena.upd_apply]
  split
  · next e =>
    subst e
    have hm := h m h0 h1
    have hk := textOf_some.1 ho
    generalize A.data m = d at hm hk
    cases hm with
    | text parts hp =>
      cases hk
      have := From.text (cs := cs) (parts ++ [c.delivered]) fun s hs => by
        rcases List.mem_append.1 hs with hs | hs
        · exact hp s hs
        · exact ⟨c, hc, List.mem_singleton.1 hs⟩
      rwa [List.flatten_append, List.flatten_cons, List.flatten_nil, List.append_nil] at this
    | _ => cases hk
  · exact h m h0 h1

theorem AllFrom.append {cs : List Call} {A B : Arena NodeData} {p c : Nat} (h : AllFrom cs A)
    (e : A.append p c = .ok B) : AllFrom cs B := by
  unfold Arena.append at e
  split at e
  · cases e
  · cases e
    exact h.same (Arena.detach_next A c) (Arena.detach_data A c)

theorem AllFrom.insertBefore {cs : List Call} {A B : Arena NodeData} {s c : Nat} (h : AllFrom cs A)
    (e : A.insertBefore s c = .ok B) : AllFrom cs B := by
  have hd : AllFrom cs (A.detach c) := h.same (Arena.detach_next A c) (Arena.detach_data A c)
  unfold Arena.insertBefore at e
  split at e
  · cases e
  · simp only at e
    split at e
    · cases e; exact hd
    · split at e
      · cases e
      · cases e; exact hd.same rfl rfl

theorem AllFrom.addText {cs : List Call} {A : Arena NodeData} (h : AllFrom cs A) (p : Nat) {c : Call} (hc : c ∈ cs) :
    AllFrom cs (A.addChild p ⟨.text c.delivered, .html⟩).1 :=
  (h.newNode (from_text hc)).same (Arena.detach_next _ _) (Arena.detach_data _ _)

theorem AllFrom.appendText {cs : List Call} {A : Arena NodeData} (h : AllFrom cs A) (p : Nat) {c : Call} (hc : c ∈ cs) :
    AllFrom cs (appendText A p c.delivered) := by
  unfold Sink.appendText
  split
  · split
    · next ho => exact h.push hc ho
    · exact h.addText p hc
  · exact h.addText p hc

theorem AllFrom.textBefore {cs : List Call} {A B : Arena NodeData} (h : AllFrom cs A) {sib : Nat} {c : Call} (hc : c ∈ cs)
    (e : textBefore A sib c.delivered = .ok B) : AllFrom cs B := by
  unfold Sink.textBefore at e
  split at e
  · next l old hb =>
    cases e
    obtain ⟨l', hl, hm⟩ := Option.bind_eq_some_iff.1 hb
    obtain ⟨o', ho, e⟩ := Option.map_eq_some_iff.1 hm
    cases e
    exact h.push hc ho
  · exact (h.newNode (from_text hc)).insertBefore e

theorem AllFrom.append_call {cs : List Call} {S S' : Sink} {p : Nat} {d : NodeOrText} {c : Call} (h : AllFrom cs S.arena)
    (hc : c ∈ cs) (hd : ∀ s, d = .text s → s = c.delivered) (e : S.append p d = .ok S') : AllFrom cs S'.arena := by
  cases d with
  | node n =>
    obtain ⟨A, e1, e⟩ := res_bind e
    cases e
    exact h.append e1
  | text s => cases e; rw [hd s rfl]; exact h.appendText p hc

theorem AllFrom.before_call {cs : List Call} {S S' : Sink} {sib : Nat} {d : NodeOrText} {c : Call} (h : AllFrom cs S.arena)
    (hc : c ∈ cs) (hd : ∀ s, d = .text s → s = c.delivered) (e : S.appendBeforeSibling sib d = .ok S') :
    AllFrom cs S'.arena := by
  cases d with
  | node n =>
    obtain ⟨A, e1, e⟩ := res_bind e
    cases e
    exact h.insertBefore e1
  | text s =>
    obtain ⟨A, e1, e⟩ := res_bind e
    cases e
    rw [hd s rfl] at e1
    exact h.textBefore hc e1

theorem missing_mem (old attrs : Attrs) : ∀ kv ∈ missing old attrs, kv ∈ attrs := by
  induction attrs generalizing old with
  | nil => intro kv h; cases h
  | cons a attrs ih =>
    obtain ⟨k, v⟩ := a
    intro kv hkv
    unfold missing at hkv
    split at hkv
    · exact List.mem_cons_of_mem _ (ih old kv hkv)
    · rcases List.mem_cons.1 hkv with rfl | hm
      · exact List.mem_cons_self
      · exact List.mem_cons_of_mem _ (ih _ kv hm)

theorem AllFrom.run {cs : List Call} {S S' : Sink} {c : Call} (h : AllFrom cs S.arena) (hc : c ∈ cs)
    (e : S.run c = .ok S') : AllFrom cs S'.arena := by
  cases c with
  | createElement t ns a =>
    cases e
    refine h.newNode ?_
    have := From.element t ns a [] hc (by simp)
    rwa [List.append_nil] at this
  | createComment s => cases e; exact h.newNode (.comment s hc)
  | createPi a b => cases e; exact h.newNode (.pi a b hc)
  | append p d => exact h.append_call hc (by rintro s rfl; rfl) e
  | appendBeforeSibling sib d => exact h.before_call hc (by rintro s rfl; rfl) e
  | appendBasedOnParent el p d =>
    simp only [Sink.run, appendBasedOnParent] at e
    split at e
    · exact h.before_call hc (by rintro s rfl; rfl) e
    · exact h.append_call hc (by rintro s rfl; rfl) e
  | appendDoctype n => cases e; exact h
  | addAttrsIfMissing n a =>
    cases e
    unfold addAttrsIfMissing
    split
    · next tag old ns hd =>
      intro m h0 h1
      show From cs (Arena.upd S.arena.data n _ m)
      rw [Arena.upd_apply]
      split
      · next em =>
        subst em
        have hm := h m h0 h1
        rw [hd] at hm
        rw [C34_adds_missing]
        cases hm with
        | element _ _ attrs more h1 h2 =>
          rw [List.append_assoc]
          refine .element tag ns attrs _ h1 fun kv hkv => ?_
          rcases List.mem_append.1 hkv with hkv | hkv
          · exact h2 kv hkv
          · exact ⟨_, a, hc, missing_mem _ _ kv hkv⟩
      · exact h m h0 h1
    · exact h
  | removeFromParent n => cases e; exact h.same (Arena.detach_next _ _) (Arena.detach_data _ _)
  | reparentChildren n p =>
    obtain ⟨A, e1, e⟩ := res_bind e
    cases e
    have : ∀ (l : List Nat) (A B : Arena NodeData), AllFrom cs A →
        l.foldlM (fun A c => (A.detach c).append p c) A = .ok B → AllFrom cs B := by
      intro l
      induction l with
      | nil => intro A B hA h; cases h; exact hA
      | cons c l ih =>
        intro A B hA h
        rw [List.foldlM_cons] at h
        obtain ⟨A1, e1, h⟩ := res_bind h
        exact ih A1 B ((hA.same (Arena.detach_next _ _) (Arena.detach_data _ _)).append e1) h
    exact this _ _ _ h e1

/-- **C94.** Nothing is in the document that the parser has not delivered: each node but the document node comes from its
calls. -/
theorem C94_nothing_invented (cs : List Call) {S : Sink} (h : Sink.new.runAll cs = .ok S) (n : Nat) (h0 : n ≠ 0)
    (hn : n < S.finish.arena.next) : From cs (S.finish.arena.data n) := by
  have : ∀ (l : List Call) (S0 : Sink), (∀ c ∈ l, c ∈ cs) → AllFrom cs S0.arena → S0.runAll l = .ok S →
      AllFrom cs S.arena := by
    intro l
    induction l with
    | nil => intro S0 _ h0 h; cases h; exact h0
    | cons c l ih =>
      intro S0 hl h0 h
      unfold runAll at h
      rw [List.foldlM_cons] at h
      obtain ⟨S1, e1, h⟩ := res_bind h
      exact ih S1 (fun c hc => hl c (List.mem_cons_of_mem _ hc)) (h0.run (hl c List.mem_cons_self) e1) h
  refine this cs Sink.new (fun _ h => h) ?_ h n (by omega) hn
  intro n h1 h2
  have : Sink.new.arena.next = 1 := rfl
  omega

/-- What an element or a comment is: tag and namespace, or the comment. -/
def sig : NodeData → Option ((Str × Ns) ⊕ Str)
  | ⟨.element tag _, ns⟩ => some (.inl (tag, ns))
  | ⟨.comment s, _⟩ => some (.inr s)
  | _ => none

/-- The elements and comments of an arena, in the order in which they were made. -/
def made (A : Arena NodeData) : List ((Str × Ns) ⊕ Str) := (List.range A.next).filterMap fun n => sig (A.data n)

/-- The element or comment that a call makes. -/
def Call.makes : Call → Option ((Str × Ns) ⊕ Str)
  | .createElement tag ns _ => some (.inl (tag, ns))
  | .createComment s => some (.inr s)
  | .createPi _ _ => some (.inr [])
  | _ => none

theorem filterMap_same {β : Type} {f g : Nat → Option β} : ∀ {l : List Nat}, (∀ n ∈ l, f n = g n) →
    l.filterMap f = l.filterMap g
  | [], _ => rfl
  | n :: l, h => by
    rw [List.filterMap_cons, List.filterMap_cons, h n (by simp), filterMap_same fun m hm => h m (by simp [hm])]

theorem made_same {A B : Arena NodeData} (hn : B.next = A.next) (hd : B.data = A.data) : made B = made A := by
  unfold made
  rw [hn, hd]

theorem made_newNode (A : Arena NodeData) (d : NodeData) : made (A.newNode d).1 = made A ++ (sig d).toList := by
  unfold made
  rw [Arena.newNode_next, List.range_succ, List.filterMap_append]
  congr 1
  · refine filterMap_same fun n hn => ?_
    have : n ≠ A.next := Nat.ne_of_lt (List.mem_range.1 hn)
    rw [Arena.newNode_data, if_neg this]
  · simp only [List.filterMap_cons, List.filterMap_nil, Arena.newNode_data, if_true]
    cases sig d <;> rfl

theorem made_setData (A : Arena NodeData) (n : Nat) (d : NodeData) (h : sig d = sig (A.data n)) :
    made (A.setData n d) = made A := by
  refine filterMap_same fun m _ => ?_
  by_cases e : m = n
  · subst e; simp [Arena.setData, h]
  · simp [Arena.setData, Arena.upd_ne _ _ e]

theorem made_push {A : Arena NodeData} {n : Nat} {old : Str} (s : Str) (h : textOf A n = some old) :
    made (pushText A n old s) = made A := by
  refine made_setData A n _ ?_
  have hk := textOf_some.1 h
  rcases hd : A.data n with ⟨k, ns⟩
  rw [hd] at hk
  cases hk
  rfl

theorem made_append {A B : Arena NodeData} {p c : Nat} (h : A.append p c = .ok B) : made B = made A := by
  unfold Arena.append at h
  split at h
  · cases h
  · cases h
    exact made_same (Arena.detach_next A c) (Arena.detach_data A c)

theorem made_insertBefore {A B : Arena NodeData} {s c : Nat} (h : A.insertBefore s c = .ok B) : made B = made A := by
  have hd : made (A.detach c) = made A := made_same (Arena.detach_next A c) (Arena.detach_data A c)
  unfold Arena.insertBefore at h
  split at h
  · cases h
  · simp only at h
    split at h
    · cases h; exact hd
    · split at h
      · cases h
      · cases h; exact hd

theorem made_addText (A : Arena NodeData) (p : Nat) (s : Str) : made (A.addChild p ⟨.text s, .html⟩).1 = made A := by
  have e := made_newNode A ⟨.text s, .html⟩
  rw [show (sig ⟨.text s, .html⟩).toList = [] from rfl, List.append_nil] at e
  rw [← e]
  exact made_same (Arena.detach_next _ _) (Arena.detach_data _ _)

theorem made_append_call {S S' : Sink} {p : Nat} {c : NodeOrText} (h : S.append p c = .ok S') :
    made S'.arena = made S.arena := by
  cases c with
  | node n =>
    obtain ⟨A, e, h⟩ := res_bind h
    cases h
    exact made_append e
  | text s =>
    cases h
    show made (appendText S.arena p s) = _
    unfold appendText
    split
    · split
      · next ho => exact made_push s ho
      · exact made_addText _ _ _
    · exact made_addText _ _ _

theorem made_before_call {S S' : Sink} {sib : Nat} {c : NodeOrText} (h : S.appendBeforeSibling sib c = .ok S') :
    made S'.arena = made S.arena := by
  cases c with
  | node n =>
    obtain ⟨A, e, h⟩ := res_bind h
    cases h
    exact made_insertBefore e
  | text s =>
    obtain ⟨A, e, h⟩ := res_bind h
    cases h
    show made A = _
    unfold textBefore at e
    split at e
    · next l old hb =>
      cases e
      obtain ⟨l', hl, hm⟩ := Option.bind_eq_some_iff.1 hb
      obtain ⟨o', ho, e⟩ := Option.map_eq_some_iff.1 hm
      cases e
      exact made_push s ho
    · have e1 := made_newNode S.arena ⟨.text s, .html⟩
      rw [show (sig ⟨.text s, .html⟩).toList = [] from rfl, List.append_nil] at e1
      exact (made_insertBefore e).trans e1

theorem made_run {S S' : Sink} {c : Call} (h : S.run c = .ok S') : made S'.arena = made S.arena ++ c.makes.toList := by
  have same : ∀ {B : Arena NodeData}, made B = made S.arena → made B = made S.arena ++ [] := by
    intro B e
    rw [List.append_nil, e]
  cases c with
  | createElement t ns a => cases h; exact made_newNode _ _
  | createComment s => cases h; exact made_newNode _ _
  | createPi a b => cases h; exact made_newNode _ _
  | append p c => exact same (made_append_call h)
  | appendBeforeSibling sib c => exact same (made_before_call h)
  | appendBasedOnParent e p c =>
    simp only [run, appendBasedOnParent] at h
    split at h
    · exact same (made_before_call h)
    · exact same (made_append_call h)
  | appendDoctype n => cases h; exact same rfl
  | addAttrsIfMissing n a =>
    cases h
    refine same ?_
    unfold addAttrsIfMissing
    split
    · next tag old ns hd =>
      refine made_setData _ _ _ ?_
      rw [hd]
      rfl
    · rfl
  | removeFromParent n => cases h; exact same (made_same (Arena.detach_next _ _) (Arena.detach_data _ _))
  | reparentChildren n p =>
    obtain ⟨A, e, h⟩ := res_bind h
    cases h
    refine same ?_
    have : ∀ (l : List Nat) (A B : Arena NodeData),
        l.foldlM (fun A c => (A.detach c).append p c) A = .ok B → made B = made A := by
      intro l
      induction l with
      | nil => intro A B h; cases h; rfl
      | cons c l ih =>
        intro A B h
        rw [List.foldlM_cons] at h
        obtain ⟨A1, e1, h⟩ := res_bind h
        rw [ih A1 B h, made_append e1]
        exact made_same (Arena.detach_next _ _) (Arena.detach_data _ _)
    exact this _ _ _ e

/-- **C94.** The elements and comments are those that the parser has created, each once, in the order of the calls. -/
theorem C94_each_once (cs : List Call) {S : Sink} (h : Sink.new.runAll cs = .ok S) :
    made S.finish.arena = cs.filterMap Call.makes := by
  have : ∀ (cs : List Call) (S0 : Sink), S0.runAll cs = .ok S →
      made S.arena = made S0.arena ++ cs.filterMap Call.makes := by
    intro cs
    induction cs with
    | nil => intro S0 h; cases h; rw [List.filterMap_nil, List.append_nil]
    | cons c cs ih =>
      intro S0 h
      unfold runAll at h
      rw [List.foldlM_cons] at h
      obtain ⟨S1, e1, h⟩ := res_bind h
      rw [ih S1 h, made_run e1, List.append_assoc, List.filterMap_cons]
      cases c.makes <;> rfl
  have := this cs Sink.new h
  rwa [show made Sink.new.arena = [] from rfl, List.nil_append] at this

/-- The calls for a page with a comment and a text keep the contract and succeed. -/
example : ∃ S, Sink.new.SafeAll (pageCalls (some "c".toList) "xy".toList) ∧
    Sink.new.runAll (pageCalls (some "c".toList) "xy".toList) = .ok S := by
  have h : (Sink.new.checkAll (pageCalls (some "c".toList) "xy".toList)).isSome = true := by decide +kernel
  obtain ⟨S, hS⟩ := Option.isSome_iff_exists.1 h
  have := checkAll_spec good_new hS
  exact ⟨S, this.1, this.2⟩

/-- Text before and after an element that is put between them: three pieces, two text nodes. -/
example :
    (match Sink.new.runAll [.createElement "p".toList .html [], .append 0 (.node 1), .append 1 (.text "a".toList),
        .createElement "b".toList .html [], .append 1 (.node 3), .append 1 (.text "c".toList),
        .appendBeforeSibling 3 (.text "b".toList)] with
      | .ok S => decide (allText S.arena = "abc".toList ∧ (S.arena.data 2).kind = .text "ab".toList)
      | .error _ => false) = true := by
  decide +kernel

end Sink
end Hotmeal
