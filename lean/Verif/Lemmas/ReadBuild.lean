import Verif.Lemmas.ReadTree

set_option autoImplicit false
set_option linter.unusedSectionVars false

/-!
# What the sink makes of the reader's steps
-/

namespace Hotmeal

open Arena

/-- The trees `cs` were added below `p`. (As `Planted`, but any tags are allowed.) -/
structure Laid (A : Arena NodeData) (p : Nat) (cs : List Html) (A' : Arena NodeData) (ids : List Nat) : Prop where
  sound : A'.Sound
  le : A.next ≤ A'.next
  parent : ∀ i, i < A.next → A'.parent i = A.parent i
  data : ∀ i, i < A.next → A'.data i = A.data i
  children : ∀ i, i < A.next → A'.children i = A.children i ++ if i = p then ids else []
  trees : ids.map A'.tree = cs
  ids_new : ∀ i ∈ ids, A.next ≤ i

theorem Laid.desc_new {A A' : Arena NodeData} {p : Nat} {cs : List Html} {ids : List Nat}
    (h : Laid A p cs A' ids) (hA : A.WF) {i m : Nat} (hi : A.next ≤ i) (hm : A'.Anc i m) : A.next ≤ m := by
  induction hm with
  | refl => exact hi
  | @step m q hq _ ih =>
    apply Classical.byContradiction
    intro hlt
    rw [h.parent m (by omega)] at hq
    have := (hA.lt_of_parent _ _ hq).2
    omega

theorem Laid.refl {A : Arena NodeData} (h : A.Sound) (p : Nat) : Laid A p [] A [] :=
  ⟨h, Nat.le_refl _, fun _ _ => rfl, fun _ _ => rfl, by simp, rfl, by simp⟩

theorem Laid.trans {A A1 A2 : Arena NodeData} {p : Nat} {cs ds : List Html} {is js : List Nat}
    (h1 : Laid A p cs A1 is) (h2 : Laid A1 p ds A2 js) (hA : A.WF) (hp : p < A.next) :
    Laid A p (cs ++ ds) A2 (is ++ js) := by
  have hle := h1.le
  refine ⟨h2.sound, Nat.le_trans h1.le h2.le, ?_, ?_, ?_, ?_, ?_⟩
  · intro i hi; rw [h2.parent i (by omega), h1.parent i hi]
  · intro i hi; rw [h2.data i (by omega), h1.data i hi]
  · intro i hi
    rw [h2.children i (by omega), h1.children i hi]
    by_cases e : i = p <;> simp [e]
  · rw [List.map_append, h2.trees, ← h1.trees]
    congr 1
    apply List.map_congr_left
    intro i hi
    apply tree_congr h1.sound.wf h2.sound.wf
    intro m hm
    have hge := h1.desc_new hA (h1.ids_new i hi) hm
    have hlt : m < A1.next := by
      rcases hm.cases' with e | ⟨q, hq, _⟩
      · subst e
        have : A1.parent i = some p := (h1.sound.wf.mem_iff _ _).1 (by
          rw [h1.children p hp, if_pos rfl]; exact List.mem_append.2 (.inr hi))
        exact (h1.sound.wf.lt_of_parent _ _ this).1
      · exact (h1.sound.wf.lt_of_parent _ _ hq).1
    rw [h2.children m hlt, if_neg (by omega), List.append_nil, h2.data m hlt]
    exact ⟨rfl, rfl⟩
  · intro i hi
    rcases List.mem_append.1 hi with hi | hi
    · exact h1.ids_new i hi
    · have := h2.ids_new i hi; omega

/-- One node without children. -/
theorem lay_leaf {A : Arena NodeData} (h : A.Sound) {p : Nat} (hp : p < A.next) (hcon : A.Container p) (d : NodeData)
    (hd : d.kind ≠ .document) (hu : ∀ tag attrs, d.kind = .element tag attrs → attrs.Unique) :
    Laid A p [Html.ofKind d.kind []] (A.addChild p d).1 [A.next] := by
  have hs := addChild_sound h hp hcon d hd hu
  have hc := h.wf.addChild_children p d
  have hpar := h.wf.addChild_parent p d
  have hda := addChild_data A p d
  have hnx := addChild_next A p d
  generalize (A.addChild p d).1 = A' at *
  refine ⟨hs, by omega, ?_, ?_, ?_, ?_, by simp⟩
  · intro i hi; rw [hpar, if_neg (by omega)]
  · intro i hi; rw [hda, if_neg (by omega)]
  · intro i hi
    rw [hc]
    by_cases e : i = p <;> simp [e]
  · simp only [List.map_cons, List.map_nil]
    rw [hs.wf.tree_eq, hda, if_pos rfl]
    unfold Arena.forest
    rw [hc, if_neg (by omega), h.wf.children_ge (Nat.le_refl _)]
    rfl

/-- A node and then trees below it. -/
theorem lay_node {A : Arena NodeData} (h : A.Sound) {p : Nat} (hp : p < A.next)
    {tag : Str} {attrs : Attrs} {cs : List Html} {A' : Arena NodeData} {ids : List Nat}
    (hcs : Laid (A.addChild p ⟨.element tag attrs, .html⟩).1 A.next cs A' ids) :
    Laid A p [.element tag attrs cs] A' [A.next] := by
  have hc := h.wf.addChild_children p ⟨.element tag attrs, .html⟩
  have hpar := h.wf.addChild_parent p ⟨.element tag attrs, .html⟩
  have hda := addChild_data A p ⟨.element tag attrs, .html⟩
  have hnx := addChild_next A p ⟨.element tag attrs, .html⟩
  generalize (A.addChild p ⟨.element tag attrs, .html⟩).1 = A1 at *
  have hle := hcs.le
  refine ⟨hcs.sound, by omega, ?_, ?_, ?_, ?_, by simp⟩
  · intro i hi; rw [hcs.parent i (by omega), hpar, if_neg (by omega)]
  · intro i hi; rw [hcs.data i (by omega), hda, if_neg (by omega)]
  · intro i hi
    rw [hcs.children i (by omega), hc, if_neg (by omega : i ≠ A.next), List.append_nil]
    by_cases e : i = p <;> simp [e]
  · simp only [List.map_cons, List.map_nil]
    rw [hcs.sound.wf.tree_eq, hcs.data _ (by omega), hda, if_pos rfl]
    unfold Arena.forest
    rw [hcs.children _ (by omega), if_pos rfl, hc, if_neg (by omega),
      h.wf.children_ge (Nat.le_refl _), List.nil_append, hcs.trees]
    rfl

theorem Laid.container {A A' : Arena NodeData} {p : Nat} {cs : List Html} {ids : List Nat} (h : Laid A p cs A' ids)
    {q : Nat} (hq : q < A.next) (hc : A.Container q) : A'.Container q := by
  unfold Arena.Container; rw [h.data q hq]; exact hc

/-- The last child of `p` is not a text node. -/
def NoTextEnd (A : Arena NodeData) (p : Nat) : Prop :=
  ∀ l, (A.children p).getLast? = some l → Sink.textOf A l = none

theorem Laid.noTextEnd {A A' : Arena NodeData} {p : Nat} {cs : List Html} {t : Html} {ids : List Nat}
    (h : Laid A p (cs ++ [t]) A' ids) (hp : p < A.next) (ht : t.isTextB = false) : NoTextEnd A' p := by
  intro l hl
  have htr := h.trees
  rw [h.children p hp, if_pos rfl] at hl
  rcases List.eq_nil_or_concat ids with e | ⟨is, i, e⟩
  · subst e; simp at htr
  · rw [List.concat_eq_append] at e
    subst e
    rw [← List.append_assoc, List.getLast?_append] at hl
    simp at hl
    subst hl
    rw [List.map_append] at htr
    have := (List.append_inj' htr rfl).2
    simp only [List.map_cons, List.map_nil, List.cons.injEq, and_true] at this
    rw [h.sound.wf.tree_eq] at this
    unfold Sink.textOf
    split
    · next s e => rw [e] at this; rw [← this] at ht; simp [Html.ofKind, Html.isTextB] at ht
    · rfl

namespace Reader

theorem build_append (σ : Site) (a b : List Ev) : build σ (a ++ b) = (build σ a).bind fun σ => build σ b := by
  simp [build, List.foldlM_append]; rfl

theorem build_append_of {σ σ' : Site} {a b : List Ev} (h : build σ a = .ok σ') : build σ (a ++ b) = build σ' b := by
  rw [build_append, h]; rfl

theorem build_cons_of {σ σ' : Site} {e : Ev} {b : List Ev} (h : build1 σ e = .ok σ') : build σ (e :: b) = build σ' b := by
  show (build1 σ e).bind _ = _
  rw [h]; rfl

/-- A new element. -/
theorem build_open {S : Sink} (h : S.arena.WF) {stk : List Nat} (hp : stk.headD S.document < S.arena.next) (tag : Str)
    (attrs : Attrs) : build1 (S, stk) (.open_ tag attrs) =
      .ok ({ S with arena := (S.arena.addChild (stk.headD S.document) ⟨.element tag attrs, .html⟩).1 },
        S.arena.next :: stk) := by
  have := h.append_newNode hp ⟨.element tag attrs, .html⟩
  simp only [build1, Sink.createElement, Sink.append, Arena.newNode_snd, bind, Except.bind]
  rw [this]

/-- A new comment. -/
theorem build_comment {S : Sink} (h : S.arena.WF) {stk : List Nat} (hp : stk.headD S.document < S.arena.next) (s : Str) :
    build1 (S, stk) (.comment s) =
      .ok ({ S with arena := (S.arena.addChild (stk.headD S.document) ⟨.comment s, .html⟩).1 }, stk) := by
  have := h.append_newNode hp ⟨.comment s, .html⟩
  simp only [build1, Sink.createComment, Sink.append, Arena.newNode_snd, bind, Except.bind]
  rw [this]

theorem appendText_more {A : Arena NodeData} (h : A.WF) (p : Nat) (u s : Str) :
    Sink.appendText (A.addChild p ⟨.text u, .html⟩).1 p s = (A.addChild p ⟨.text (u ++ s), .html⟩).1 := by
  have hc := h.addChild_children p ⟨.text u, .html⟩ p
  have hd := addChild_data A p ⟨.text u, .html⟩ A.next
  rw [if_pos rfl] at hc hd
  unfold Sink.appendText
  rw [hc, List.getLast?_append]
  simp only [List.getLast?_singleton, Option.some_or, Sink.textOf, hd, Sink.pushText]
  have hn : (A.newNode ⟨.text u, .html⟩).1.parent A.next = none := by simp [Arena.newNode]
  have hn' : (A.newNode ⟨.text (u ++ s), .html⟩).1.parent A.next = none := by simp [Arena.newNode]
  simp only [Arena.addChild, Arena.newNode_snd]
  rw [Arena.appendRaw_of_parent_none hn, Arena.appendRaw_of_parent_none hn']
  simp only [Arena.newNode, Arena.setData, Arena.mk.injEq, true_and]
  funext m
  simp only [Arena.upd_apply]
  split <;> rfl

theorem appendText_first {A : Arena NodeData} {p : Nat} (hn : NoTextEnd A p) (s : Str) :
    Sink.appendText A p s = (A.addChild p ⟨.text s, .html⟩).1 := by
  unfold Sink.appendText
  split
  · next l hl => rw [hn l hl]
  · rfl

/-- A new text. -/
theorem build_text {S : Sink} (h : S.arena.WF) {stk : List Nat} {s : Str} (hs : s ≠ [])
    (hn : NoTextEnd S.arena (stk.headD S.document)) : build (S, stk) (s.map Ev.char) =
      .ok ({ S with arena := (S.arena.addChild (stk.headD S.document) ⟨.text s, .html⟩).1 }, stk) := by
  have more : ∀ (t u : Str), build ({ S with arena := (S.arena.addChild (stk.headD S.document) ⟨.text u, .html⟩).1 }, stk)
      (t.map Ev.char) = .ok ({ S with arena := (S.arena.addChild (stk.headD S.document) ⟨.text (u ++ t), .html⟩).1 }, stk) := by
    intro t
    induction t with
    | nil => intro u; rw [List.append_nil]; rfl
    | cons c t ih =>
      intro u
      rw [List.map_cons, build_cons_of (σ' := ({ S with arena := (S.arena.addChild (stk.headD S.document) ⟨.text (u ++ [c]), .html⟩).1 }, stk)), ih]
      · simp
      · simp only [build1, Sink.append, bind, Except.bind]
        rw [appendText_more h]
  cases s with
  | nil => exact absurd rfl hs
  | cons c t =>
    rw [List.map_cons, build_cons_of (σ' := ({ S with arena := (S.arena.addChild (stk.headD S.document) ⟨.text [c], .html⟩).1 }, stk)), more]
    · rfl
    · simp only [build1, Sink.append, bind, Except.bind]
      rw [appendText_first hn]

mutual
/-- Texts are not empty and not next to each other, there are no document nodes, and no attribute is there twice. -/
def _root_.Hotmeal.Html.neat : Html → Bool
  | .document => false
  | .text s => !s.isEmpty
  | .comment _ => true
  | .element _ attrs cs => decide attrs.Unique && Html.apartB cs && Html.neatL cs
/-- `neat` for every tree of a list. -/
def _root_.Hotmeal.Html.neatL : List Html → Bool
  | [] => true
  | c :: cs => c.neat && Html.neatL cs
end

theorem neatL_text {cs : List Html} {k : RawKind} {tag : Str} (h : Html.okRawKids k tag cs = true) :
    Html.apartB cs = true ∧ Html.neatL cs = true := by
  unfold Html.okRawKids at h
  split at h
  · exact ⟨rfl, rfl⟩
  · simp only [Bool.and_eq_true] at h
    exact ⟨rfl, by simp [Html.neatL, Html.neat]; simpa using h.1.1⟩
  · cases h

mutual
theorem neat_of_readable : ∀ (t : Html) {stack : List Str}, t.readable stack = true → t.neat = true
  | .document, _, h => by simp [Html.readable] at h
  | .text s, _, h => by
    simp only [Html.readable, Bool.and_eq_true] at h
    simp only [Html.neat]; exact h.1.1
  | .comment s, _, _ => by simp [Html.neat]
  | .element tag as cs, stack, h => by
    simp only [Html.readable, Bool.and_eq_true, decide_eq_true_eq] at h
    obtain ⟨⟨⟨⟨⟨_, _⟩, hu⟩, _⟩, _⟩, hc⟩ := h
    simp only [Html.neat, Bool.and_eq_true, decide_eq_true_eq]
    split at hc
    · rw [List.isEmpty_iff] at hc; subst hc
      exact ⟨⟨hu, rfl⟩, rfl⟩
    · split at hc
      · obtain ⟨h1, h2⟩ := neatL_text hc
        exact ⟨⟨hu, h1⟩, h2⟩
      · simp only [Bool.and_eq_true] at hc
        exact ⟨⟨hu, hc.1⟩, neatL_of_readable cs hc.2⟩
theorem neatL_of_readable : ∀ (cs : List Html) {stack : List Str}, Html.readableL stack cs = true → Html.neatL cs = true
  | [], _, _ => rfl
  | c :: cs, stack, h => by
    simp only [Html.readableL, Bool.and_eq_true] at h
    simp only [Html.neatL, Bool.and_eq_true]
    exact ⟨neat_of_readable c h.1, neatL_of_readable cs h.2⟩
end

mutual
/-- What the sink makes of the steps for a tree. -/
theorem build_tree : ∀ (t : Html) {S : Sink} {stk : List Nat}, t.neat = true → S.arena.Sound →
    stk.headD S.document < S.arena.next → S.arena.Container (stk.headD S.document) →
    (t.isTextB = true → NoTextEnd S.arena (stk.headD S.document)) →
    ∃ A' i, build (S, stk) t.evs = .ok ({ S with arena := A' }, stk) ∧ Laid S.arena (stk.headD S.document) [t] A' [i]
  | .document, _, _, h, _, _, _, _ => by simp [Html.neat] at h
  | .text s, S, stk, h, hs, hp, hc, hn => by
    simp only [Html.neat, Bool.not_eq_true', List.isEmpty_eq_false_iff] at h
    exact ⟨_, _, build_text hs.wf h (hn rfl), lay_leaf hs hp hc ⟨.text s, .html⟩ (by simp) (fun _ _ e => by cases e)⟩
  | .comment s, S, stk, h, hs, hp, hc, _ => by
    refine ⟨_, _, ?_, lay_leaf hs hp hc ⟨.comment s, .html⟩ (by simp) (fun _ _ e => by cases e)⟩
    show build (S, stk) [.comment s] = _
    rw [build_cons_of (build_comment hs.wf hp s)]; rfl
  | .element tag as cs, S, stk, h, hs, hp, hc, _ => by
    simp only [Html.neat, Bool.and_eq_true, decide_eq_true_eq] at h
    obtain ⟨⟨hu, ha⟩, hk⟩ := h
    have hl := lay_leaf hs hp hc ⟨.element tag as, .html⟩ (by simp) (fun _ _ e => by cases e; exact hu)
    obtain ⟨A', ids, e, hA⟩ := build_trees cs
      (S := { S with arena := (S.arena.addChild (stk.headD S.document) ⟨.element tag as, .html⟩).1 })
      (stk := S.arena.next :: stk) hk ha hl.sound (by
        show S.arena.next < _
        rw [addChild_next]; omega) (by
        right; refine ⟨tag, as, ?_⟩
        show ((S.arena.addChild _ _).1.data S.arena.next).kind = _
        rw [addChild_data, if_pos rfl]) (by
        intro _ l hl
        have : (S.arena.addChild (stk.headD S.document) ⟨.element tag as, .html⟩).1.children S.arena.next = [] := by
          rw [hs.wf.addChild_children, if_neg (by omega)]
          exact hs.wf.children_ge (Nat.le_refl _)
        change ((S.arena.addChild _ _).1.children S.arena.next).getLast? = some l at hl
        rw [this] at hl; cases hl)
    refine ⟨A', S.arena.next, ?_, lay_node hs hp hA⟩
    simp only [Html.evs]
    rw [build_cons_of (build_open hs.wf hp tag as), build_append_of e]
    rfl
/-- What the sink makes of the steps for trees. -/
theorem build_trees : ∀ (cs : List Html) {S : Sink} {stk : List Nat}, Html.neatL cs = true → Html.apartB cs = true →
    S.arena.Sound → stk.headD S.document < S.arena.next → S.arena.Container (stk.headD S.document) →
    ((cs.head?.any Html.isTextB) = true → NoTextEnd S.arena (stk.headD S.document)) →
    ∃ A' ids, build (S, stk) (Html.evsL cs) = .ok ({ S with arena := A' }, stk) ∧
      Laid S.arena (stk.headD S.document) cs A' ids
  | [], S, stk, _, _, hs, _, _, _ => ⟨S.arena, [], rfl, Laid.refl hs _⟩
  | c :: cs, S, stk, h, ha, hs, hp, hc, hn => by
    simp only [Html.neatL, Bool.and_eq_true] at h
    obtain ⟨A1, i, e1, h1⟩ := build_tree c h.1 hs hp hc (fun ht => hn (by simpa using ht))
    have hle := h1.le
    obtain ⟨A2, ids, e2, h2⟩ := build_trees cs (S := { S with arena := A1 }) (stk := stk) h.2 (by
      cases cs with
      | nil => rfl
      | cons d ds => simp only [Html.apartB, Bool.and_eq_true] at ha; exact ha.2) h1.sound (by
        show stk.headD S.document < A1.next
        omega) (h1.container hp hc) (by
        intro ht
        cases cs with
        | nil => simp at ht
        | cons d ds =>
          simp only [Html.apartB, Bool.and_eq_true, Bool.not_eq_true', Bool.and_eq_false_iff] at ha
          simp only [List.head?_cons, Option.any_some] at ht
          have hct : c.isTextB = false := by
            rcases ha.1 with h | h
            · exact h
            · rw [ht] at h; cases h
          exact Laid.noTextEnd (cs := []) h1 hp hct)
    refine ⟨A2, i :: ids, ?_, ?_⟩
    · simp only [Html.evsL]
      rw [build_append_of e1, e2]
    · exact h1.trans h2 hs.wf hp
end

end Reader
end Hotmeal
