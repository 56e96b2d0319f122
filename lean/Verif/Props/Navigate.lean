import Verif.Model.Navigate
import Verif.Lemmas.Traverse
import Verif.Props.Api
import Verif.Spec.OfForest

/-! # C92: programs that follow the links of a document see each node once and in order -/

set_option autoImplicit false
set_option linter.unusedSectionVars false

namespace Hotmeal
namespace Document

variable {D : Document}

/-- A program that starts at a node (or at none) and follows a link until there is none sees these nodes. -/
inductive Walk (link : Nat → Option Nat) : Option Nat → List Nat → Prop
  | done : Walk link none []
  | step {n : Nat} {l : List Nat} : Walk link (link n) l → Walk link (some n) (n :: l)

theorem idxOf_mid {n : Nat} : ∀ (pre post : List Nat), n ∉ pre → (pre ++ n :: post).idxOf n = pre.length
  | [], _, _ => List.idxOf_cons_self
  | x :: pre, post, h => by
    have hx : x ≠ n := fun e => h (by simp [e])
    have hb : (x == n) = false := by simpa using hx
    simp [List.idxOf_cons, hb, idxOf_mid pre post (fun hm => h (List.mem_cons_of_mem _ hm))]

theorem nextSibling_at (h : D.arena.WF) {p : Nat} {pre post : List Nat} {n : Nat}
    (e : D.arena.children p = pre ++ n :: post) : D.nextSibling n = post.head? := by
  have hp : D.arena.parent n = some p := (h.mem_iff n p).1 (by rw [e]; simp)
  have hn : n ∉ pre := by
    have := h.nodup p
    rw [e] at this
    exact fun hm => (List.nodup_append.1 this).2.2 n hm n (by simp) rfl
  unfold nextSibling
  simp only [hp, e, idxOf_mid pre post hn]
  rw [List.getElem?_append_right (by omega)]
  have : pre.length + 1 - pre.length = 1 := by omega
  rw [this]
  cases post <;> rfl

theorem prevSibling_at (h : D.arena.WF) {p : Nat} {pre post : List Nat} {n : Nat}
    (e : D.arena.children p = pre ++ n :: post) : D.prevSibling n = pre.getLast? := by
  have hp : D.arena.parent n = some p := (h.mem_iff n p).1 (by rw [e]; simp)
  have hn : n ∉ pre := by
    have := h.nodup p
    rw [e] at this
    exact fun hm => (List.nodup_append.1 this).2.2 n hm n (by simp) rfl
  unfold prevSibling
  simp only [hp, e, idxOf_mid pre post hn]
  rcases List.eq_nil_or_concat pre with rfl | ⟨q, x, rfl⟩
  · rfl
  · simp

/-- **C92.** From the first child along `next_sibling` a program sees the children of a node, each once, in order, and comes
to an end. -/
theorem C92_forward (h : D.arena.WF) (n : Nat) : Walk D.nextSibling (D.firstChild n) (D.arena.children n) := by
  have : ∀ (post pre : List Nat), D.arena.children n = pre ++ post → Walk D.nextSibling post.head? post := by
    intro post
    induction post with
    | nil => intro _ _; exact .done
    | cons c post ih =>
      intro pre e
      refine .step ?_
      rw [nextSibling_at h e]
      exact ih (pre ++ [c]) (by rw [e, List.append_assoc]; rfl)
  exact this _ [] rfl

/-- **C92.** From the last child along `prev_sibling` it sees them in the opposite order. -/
theorem C92_backward (h : D.arena.WF) (n : Nat) : Walk D.prevSibling (D.lastChild n) (D.arena.children n).reverse := by
  have : ∀ (rpre post : List Nat), D.arena.children n = rpre.reverse ++ post → Walk D.prevSibling rpre.head? rpre := by
    intro rpre
    induction rpre with
    | nil => intro _ _; exact .done
    | cons c rpre ih =>
      intro post e
      rw [List.reverse_cons, List.append_assoc] at e
      refine .step ?_
      rw [prevSibling_at h e, List.getLast?_reverse]
      exact ih (c :: post) e
  have := this (D.arena.children n).reverse [] (by simp)
  rwa [List.head?_reverse] at this

/-- A program that follows a link has no choice. -/
theorem Walk.unique {link : Nat → Option Nat} {s : Option Nat} {l l' : List Nat} (h : Walk link s l)
    (h' : Walk link s l') : l = l' := by
  induction h generalizing l' with
  | done => cases h'; rfl
  | step _ ih => cases h' with | step h' => rw [ih h']

/-- **C92.** A program that counts what it sees gets `child_count`. -/
theorem C92_count (h : D.arena.WF) (n : Nat) (l : List Nat) (hl : Walk D.nextSibling (D.firstChild n) l) :
    l.length = D.childCount n := by
  rw [hl.unique (C92_forward h n)]; rfl

theorem split_of_parent (h : D.arena.WF) {n p : Nat} (hp : D.arena.parent n = some p) :
    ∃ pre post, D.arena.children p = pre ++ n :: post :=
  List.append_of_mem ((h.mem_iff n p).2 hp)

/-- **C92.** `next_sibling` and `prev_sibling` lead back and forth, between nodes with the same parent. -/
theorem C92_inverse (h : D.arena.WF) (a b : Nat) :
    (D.nextSibling a = some b ↔ D.prevSibling b = some a) ∧
      (D.nextSibling a = some b → ∃ p, D.parentOf a = some p ∧ D.parentOf b = some p ∧ a ≠ b) := by
  have fwd : ∀ a b, D.nextSibling a = some b → ∃ p pre post, D.arena.children p = pre ++ a :: b :: post := by
    intro a b e
    cases hp : D.arena.parent a with
    | none => unfold nextSibling at e; rw [hp] at e; cases e
    | some p =>
      obtain ⟨pre, post, hc⟩ := split_of_parent h hp
      rw [nextSibling_at h hc] at e
      cases post with
      | nil => cases e
      | cons x post => cases e; exact ⟨p, pre, post, hc⟩
  refine ⟨⟨fun e => ?_, fun e => ?_⟩, fun e => ?_⟩
  · obtain ⟨p, pre, post, hc⟩ := fwd a b e
    rw [prevSibling_at h (pre := pre ++ [a]) (post := post) (p := p) (by rw [hc, List.append_assoc]; rfl)]
    simp
  · cases hp : D.arena.parent b with
    | none => unfold prevSibling at e; rw [hp] at e; cases e
    | some p =>
      obtain ⟨pre, post, hc⟩ := split_of_parent h hp
      rw [prevSibling_at h hc] at e
      rcases List.eq_nil_or_concat pre with rfl | ⟨q, x, rfl⟩
      · cases e
      · rw [List.concat_eq_append, List.getLast?_concat] at e
        cases e
        rw [nextSibling_at h (pre := q) (post := b :: post) (p := p) (by rw [hc, List.concat_eq_append, List.append_assoc]; rfl)]
        rfl
  · obtain ⟨p, pre, post, hc⟩ := fwd a b e
    refine ⟨p, (h.mem_iff a p).1 (by rw [hc]; simp), (h.mem_iff b p).1 (by rw [hc]; simp), ?_⟩
    rintro rfl
    have := h.nodup p
    rw [hc] at this
    simp [List.nodup_append] at this

/-- **C92.** The first child is the child without previous sibling, and the last child is the one without next sibling. -/
theorem C92_ends (h : D.arena.WF) (n p : Nat) :
    (D.firstChild p = some n ↔ D.parentOf n = some p ∧ D.prevSibling n = none) ∧
      (D.lastChild p = some n ↔ D.parentOf n = some p ∧ D.nextSibling n = none) := by
  refine ⟨⟨fun e => ?_, fun ⟨hp, e⟩ => ?_⟩, ⟨fun e => ?_, fun ⟨hp, e⟩ => ?_⟩⟩
  · obtain ⟨post, hc⟩ := List.head?_eq_some_iff.1 e
    exact ⟨(h.mem_iff n p).1 (by rw [hc]; simp), prevSibling_at h (pre := []) hc⟩
  · obtain ⟨pre, post, hc⟩ := split_of_parent h hp
    rw [prevSibling_at h hc, List.getLast?_eq_none_iff] at e
    subst e
    unfold firstChild
    rw [hc]; rfl
  · obtain ⟨pre, hc⟩ := List.getLast?_eq_some_iff.1 e
    exact ⟨(h.mem_iff n p).1 (by rw [hc]; simp), nextSibling_at h (post := []) hc⟩
  · obtain ⟨pre, post, hc⟩ := split_of_parent h hp
    rw [nextSibling_at h hc, List.head?_eq_none_iff] at e
    subst e
    unfold lastChild
    rw [hc, List.getLast?_concat]

/-- Where a program goes that has seen all below a node, without leaving what is below `root`: to the next sibling of the
node, or of the nearest node above that has one. -/
inductive Leave (D : Document) (root : Nat) : Nat → Option Nat → Prop
  | stop : Leave D root root none
  | next {n m : Nat} : n ≠ root → D.nextSibling n = some m → Leave D root n (some m)
  | up {n p : Nat} {r : Option Nat} : n ≠ root → D.nextSibling n = none → D.parentOf n = some p → Leave D root p r →
    Leave D root n r

/-- What a program sees that goes down to first children where there are any. -/
inductive Tour (D : Document) (root : Nat) : Option Nat → List Nat → Prop
  | done : Tour D root none []
  | down {n c : Nat} {l : List Nat} : D.firstChild n = some c → Tour D root (some c) l → Tour D root (some n) (n :: l)
  | leave {n : Nat} {r : Option Nat} {l : List Nat} : D.firstChild n = none → Leave D root n r → Tour D root r l →
    Tour D root (some n) (n :: l)

theorem Leave.unique {root n : Nat} {r r' : Option Nat} (h : Leave D root n r) (h' : Leave D root n r') : r = r' := by
  induction h with
  | stop => cases h' <;> first | rfl | contradiction
  | next hn e =>
    cases h' with
    | stop => contradiction
    | next _ e' => rw [← e, e']
    | up _ e' => rw [e] at e'; cases e'
  | up hn e hp _ ih =>
    cases h' with
    | stop => contradiction
    | next _ e' => rw [e] at e'; cases e'
    | up _ _ hp' h' => rw [hp] at hp'; cases hp'; exact ih h'

/-- **C92.** Such a program has no choice. -/
theorem C92_tour_unique {root : Nat} {s : Option Nat} {l l' : List Nat} (h : Tour D root s l) (h' : Tour D root s l') :
    l = l' := by
  induction h generalizing l' with
  | done => cases h'; rfl
  | down e _ ih =>
    cases h' with
    | down e' h' => rw [e] at e'; cases e'; rw [ih h']
    | leave e' => rw [e] at e'; cases e'
  | leave e hl _ ih =>
    cases h' with
    | down e' => rw [e] at e'; cases e'
    | leave _ hl' h' => rw [hl.unique hl'] at ih; rw [ih h']

theorem tour_below (h : D.arena.WF) (root : Nat) (n : Nat) : ∀ (r : Option Nat) (l : List Nat),
    D.arena.Anc root n → Leave D root n r → Tour D root r l → Tour D root (some n) (D.arena.descendants n ++ l) := by
  induction n using h.induct_down' with
  | _ n ih =>
    intro r l ha hr hl
    rw [h.descendants_flatMap]
    have hne : ∀ c, c ∈ D.arena.children n → c ≠ root := by
      rintro c hc rfl
      obtain ⟨rank, hrank⟩ := h.acyclic
      have up : ∀ m, D.arena.Anc c m → rank c ≤ rank m := by
        intro m hm
        induction hm with
        | refl => exact Nat.le_refl _
        | step hp _ ih => have := hrank _ _ hp; omega
      have h1 := up n ha
      have h2 := hrank c n ((h.mem_iff c n).1 hc)
      omega
    have main : ∀ (post pre : List Nat), D.arena.children n = pre ++ post → post ≠ [] →
        Tour D root post.head? (post.flatMap D.arena.descendants ++ l) := by
      intro post
      induction post with
      | nil => intro _ _ hn; exact absurd rfl hn
      | cons c post ihp =>
        intro pre e _
        have hc : c ∈ D.arena.children n := by rw [e]; simp
        have hp := (h.mem_iff c n).1 hc
        rw [List.flatMap_cons, List.append_assoc]
        cases post with
        | nil =>
          refine ih c hp r _ (.step hp ha) (.up (hne c hc) (nextSibling_at h e) hp hr) ?_
          simpa using hl
        | cons d post =>
          exact ih c hp (some d) _ (.step hp ha) (.next (hne c hc) (nextSibling_at h e))
            (ihp (pre ++ [c]) (by rw [e, List.append_assoc]; rfl) (by simp))
    rw [List.cons_append]
    cases hc : D.arena.children n with
    | nil =>
      refine .leave (r := r) (by unfold firstChild; rw [hc]; rfl) hr ?_
      simpa using hl
    | cons c cs =>
      have := main (c :: cs) [] hc (by simp)
      exact .down (by unfold firstChild; rw [hc]; rfl) this

/-- **C92.** A program without stack that follows `first_child`, `next_sibling` and `parent` sees the node it starts from and
all nodes below, each once and before what is below it, and comes to an end. -/
theorem C92_document_order (h : D.arena.WF) (n : Nat) :
    Tour D n (some n) (D.arena.descendants n) ∧ (D.arena.descendants n).Nodup ∧
      ∀ m, m ∈ D.arena.descendants n ↔ D.arena.Anc n m := by
  refine ⟨?_, h.descendants_nodup n, fun m => h.mem_descendants n m⟩
  have := tour_below h n n none [] .refl .stop .done
  rwa [List.append_nil] at this

/-- **C92.** All this holds after any sequence of edits by the calls of the library that do not put a node below itself. -/
theorem C92_after_edits {E : Document} (h : D.arena.WF) (r : Reach Safe D E) (n : Nat) :
    Walk E.nextSibling (E.firstChild n) (E.arena.children n) ∧
      Walk E.prevSibling (E.lastChild n) (E.arena.children n).reverse ∧
      Tour E n (some n) (E.arena.descendants n) :=
  have hE := C18_links_stay_a_tree h r
  ⟨C92_forward hE n, C92_backward hE n, (C92_document_order hE n).1⟩

/-- **C92.** What is inserted before a node is its previous sibling, what is inserted after it is its next sibling, and what
is appended is the last child. -/
theorem C92_insert_links (h : D.arena.WF) (p sib x : Nat) (hp : D.parentOf sib = some p) (hx : x < D.arena.next)
    (ha : ¬ D.arena.Anc x sib) :
    (∃ E, D.run (.insertBefore sib x) = .ok E ∧ E.nextSibling x = some sib ∧ E.prevSibling sib = some x ∧
      (D.prevSibling sib ≠ some x → E.prevSibling x = D.prevSibling sib)) ∧
    (∃ E, D.run (.insertAfter sib x) = .ok E ∧ E.prevSibling x = some sib ∧ E.nextSibling sib = some x ∧
      (D.nextSibling sib ≠ some x → E.nextSibling x = D.nextSibling sib)) ∧
    (∃ E, D.run (.appendChild p x) = .ok E ∧ E.lastChild p = some x ∧ E.nextSibling x = none) := by
  have hne : sib ≠ x := by rintro rfl; exact ha .refl
  obtain ⟨pre, post, hc⟩ := split_of_parent h hp
  obtain ⟨l, r, hlr, ⟨A1, e1, hp1, hc1, -⟩, ⟨A2, e2, hp2, hc2, -⟩⟩ := C18_insert_effect D.arena h p sib x hp ha
  have hap : ¬ D.arena.Anc x p := fun hq => ha (.step hp hq)
  obtain ⟨A3, e3, hp3, hc3, -⟩ := (C18_append_effect D.arena h p x).2 hap
  have hpn := (h.lt_of_parent sib p hp).2
  have r1 : D.run (.insertBefore sib x) = .ok (D.withArena A1) := by simp only [run, e1]; rfl
  have r2 : D.run (.insertAfter sib x) = .ok (D.withArena A2) := by simp only [run, e2]; rfl
  have r3 : D.run (.appendChild p x) = .ok (D.withArena A3) := by simp only [run, e3]; rfl
  have w1 : (D.withArena A1).arena.WF := run_wf h (c := .insertBefore sib x) ⟨hx, ha⟩ r1
  have w2 : (D.withArena A2).arena.WF := run_wf h (c := .insertAfter sib x) ⟨hx, ha⟩ r2
  have w3 : (D.withArena A3).arena.WF := run_wf h (c := .appendChild p x) ⟨hpn, hx⟩ r3
  have hnd := h.nodup p
  rw [hc] at hnd
  have hspre : sib ∉ pre := fun hm => (List.nodup_append.1 hnd).2.2 sib hm sib (by simp) rfl
  have hl : l = pre.filter (· ≠ x) ∧ r = post.filter (· ≠ x) := by
    have hnd' : (l ++ sib :: r).Nodup := by rw [← hlr]; exact (h.nodup p).filter _
    have hsl : sib ∉ l := fun hm => (List.nodup_append.1 hnd').2.2 sib hm sib (by simp) rfl
    rw [hc, List.filter_append, List.filter_cons_of_pos (by simpa using hne)] at hlr
    have hsp : sib ∉ pre.filter (· ≠ x) := fun hm => hspre (List.mem_filter.1 hm).1
    have i1 := idxOf_mid (pre.filter (· ≠ x)) (post.filter (· ≠ x)) hsp
    have i2 := idxOf_mid l r hsl
    rw [hlr, i2] at i1
    have := List.append_inj hlr i1.symm
    exact ⟨this.1.symm, (List.cons.inj this.2).2.symm⟩
  refine ⟨⟨_, r1, ?_, ?_, fun hq => ?_⟩, ⟨_, r2, ?_, ?_, fun hq => ?_⟩, ⟨_, r3, ?_, ?_⟩⟩
  · exact nextSibling_at w1 (p := p) (pre := l) (post := sib :: r) hc1
  · rw [prevSibling_at w1 (p := p) (pre := l ++ [x]) (post := r) (by rw [List.append_assoc]; exact hc1)]
    simp
  · rw [prevSibling_at w1 (p := p) (pre := l) (post := sib :: r) hc1]
    rw [prevSibling_at h hc] at hq ⊢
    rw [hl.1]
    rcases List.eq_nil_or_concat pre with rfl | ⟨q, y, rfl⟩
    · rfl
    · rw [List.concat_eq_append, List.getLast?_concat] at hq
      have hy : y ≠ x := fun e => hq (by rw [e])
      rw [List.concat_eq_append, List.filter_append, List.filter_cons_of_pos (by simpa using hy)]
      simp
  · rw [prevSibling_at w2 (p := p) (pre := l ++ [sib]) (post := r) (by rw [List.append_assoc]; exact hc2)]
    simp
  · exact nextSibling_at w2 (p := p) (pre := l) (post := x :: r) hc2
  · rw [nextSibling_at w2 (p := p) (pre := l ++ [sib]) (post := r) (by rw [List.append_assoc]; exact hc2)]
    rw [nextSibling_at h hc] at hq ⊢
    rw [hl.2]
    cases post with
    | nil => rfl
    | cons y post =>
      have hy : y ≠ x := fun e => hq (by rw [e]; rfl)
      rw [List.filter_cons_of_pos (by simpa using hy)]
      rfl
  · show (A3.children p).getLast? = _
    rw [hc3, List.getLast?_concat]
  · exact nextSibling_at w3 (p := p) (post := []) hc3

/-- **C92.** When a node is removed, its siblings become each other's siblings. -/
theorem C92_remove_links (h : D.arena.WF) (a n b : Nat) (ha : D.nextSibling a = some n) (hb : D.nextSibling n = some b) :
    ∃ E, D.run (.remove n) = .ok E ∧ E.nextSibling a = some b ∧ E.prevSibling b = some a ∧ E.parentOf n = none := by
  obtain ⟨p, hpa, hpn, han⟩ := (C92_inverse h a n).2 ha
  obtain ⟨pre, post, hc⟩ := split_of_parent h hpa
  have e1 := nextSibling_at h hc
  rw [ha] at e1
  cases post with
  | nil => cases e1
  | cons m post =>
    cases e1
    have e2 := nextSibling_at h (pre := pre ++ [a]) (post := post) (n := n) (p := p) (by rw [hc, List.append_assoc]; rfl)
    rw [hb] at e2
    cases post with
    | nil => cases e2
    | cons m post =>
      cases e2
      obtain ⟨hd1, hd2, -⟩ := C18_remove_effect D.arena h n
      have hw : (D.withArena (D.arena.detach n)).arena.WF := h.detach n
      have hnd := h.nodup p
      rw [hc] at hnd
      have key : (D.withArena (D.arena.detach n)).arena.children p = pre ++ a :: b :: post := by
        show (D.arena.detach n).children p = _
        rw [hd2, hc]
        have f : ∀ l : List Nat, n ∉ l → l.filter (· ≠ n) = l := fun l hl =>
          List.filter_eq_self.2 fun y hy => by
            simp only [decide_eq_true_eq]
            rintro rfl
            exact hl hy
        have h1 : n ∉ pre := fun hm => (List.nodup_append.1 hnd).2.2 n hm n (by simp) rfl
        have h2 : n ∉ b :: post := by
          have := (List.nodup_append.1 hnd).2.1
          exact (List.nodup_cons.1 (List.nodup_cons.1 this).2).1
        rw [List.filter_append, f pre h1, List.filter_cons_of_pos (by simpa using han),
          List.filter_cons_of_neg (by simp), f _ h2]
      have hE := nextSibling_at hw key
      exact ⟨_, rfl, hE, (C92_inverse hw a b).1.1 hE, hd1⟩

/-- `<body><p>x</p><i></i><b></b></body>`: the body is node 2. -/
example :
    let D := Document.ofForest [.element "p".toList [] [.text "x".toList], .element "i".toList [] [],
      .element "b".toList [] []]
    D.firstChild 2 = some 3 ∧ D.nextSibling 3 = some 5 ∧ D.nextSibling 5 = some 6 ∧ D.nextSibling 6 = none ∧
      D.lastChild 2 = some 6 ∧ D.prevSibling 5 = some 3 ∧ D.arena.descendants 2 = [2, 3, 4, 5, 6] := by
  decide +kernel

/-- The arena of that document is a tree, and the empty document is one to start edits from. -/
example : (Document.ofForest [.element "p".toList [] [.text "x".toList], .element "i".toList [] [],
      .element "b".toList [] []]).arena.WF ∧ Document.new.arena.WF :=
  ⟨(ofForest_valid _ (by decide +kernel)).wf, new_sound.arena.wf⟩

/-- The program without stack leaves the text below the first paragraph for the second child of the body. -/
example :
    let D := Document.ofForest [.element "p".toList [] [.text "x".toList], .element "i".toList [] []]
    Leave D 2 4 (some 5) ∧ Leave D 2 5 none :=
  ⟨.up (by decide) (by decide +kernel) (by decide +kernel : _ = some 3) (.next (by decide) (by decide +kernel)),
    .up (by decide) (by decide +kernel) (by decide +kernel : _ = some 2) .stop⟩

end Document
end Hotmeal
