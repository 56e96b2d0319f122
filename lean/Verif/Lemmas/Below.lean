import Verif.Lemmas.ReadPlain
import Verif.Props.RoundTrip
import Verif.Props.Wire

set_option autoImplicit false
set_option linter.unusedSectionVars false

/-!
# From what holds for a tree to what holds for the nodes of a document
-/

namespace Hotmeal

mutual
/-- Every element of a tree meets a condition on its tag, attributes and children. -/
def Html.every (f : Str → Attrs → List Html → Bool) : Html → Bool
  | .element tag as cs => f tag as cs && everyL f cs
  | _ => true
/-- `every` for every tree of a list. -/
def Html.everyL (f : Str → Attrs → List Html → Bool) : List Html → Bool
  | [] => true
  | c :: cs => c.every f && everyL f cs
end

mutual
/-- The elements of a tree rank above the elements that they are in: above `r` in particular, and below `m`. -/
def Html.layered (rank : Str → Nat) (m r : Nat) : Html → Bool
  | .element tag _ cs => decide (r < rank tag) && decide (rank tag < m) && layeredL rank m (rank tag) cs
  | _ => true
/-- `layered` for every tree of a list. -/
def Html.layeredL (rank : Str → Nat) (m r : Nat) : List Html → Bool
  | [] => true
  | c :: cs => c.layered rank m r && layeredL rank m r cs
end

theorem Html.everyL_mem {f : Str → Attrs → List Html → Bool} {cs : List Html} (h : Html.everyL f cs = true) :
    ∀ c ∈ cs, c.every f = true := by
  induction cs with
  | nil => simp
  | cons c cs ih =>
    simp only [Html.everyL, Bool.and_eq_true] at h
    intro d hd
    rcases List.mem_cons.1 hd with rfl | hd
    · exact h.1
    · exact ih h.2 d hd

theorem Html.layeredL_mem {rank : Str → Nat} {m r : Nat} {cs : List Html} (h : Html.layeredL rank m r cs = true) :
    ∀ c ∈ cs, c.layered rank m r = true := by
  induction cs with
  | nil => simp
  | cons c cs ih =>
    simp only [Html.layeredL, Bool.and_eq_true] at h
    intro d hd
    rcases List.mem_cons.1 hd with rfl | hd
    · exact h.1
    · exact ih h.2 d hd

mutual
theorem Html.every_mono {f g : Str → Attrs → List Html → Bool} (hfg : ∀ tag as cs, f tag as cs = true → g tag as cs = true) :
    ∀ t : Html, t.every f = true → t.every g = true
  | .element tag as cs, h => by
    simp only [Html.every, Bool.and_eq_true] at h ⊢
    exact ⟨hfg _ _ _ h.1, Html.everyL_mono hfg cs h.2⟩
  | .text _, _ => rfl
  | .comment _, _ => rfl
  | .document, _ => rfl
theorem Html.everyL_mono {f g : Str → Attrs → List Html → Bool} (hfg : ∀ tag as cs, f tag as cs = true → g tag as cs = true) :
    ∀ cs : List Html, Html.everyL f cs = true → Html.everyL g cs = true
  | [], _ => rfl
  | c :: cs, h => by
    simp only [Html.everyL, Bool.and_eq_true] at h ⊢
    exact ⟨Html.every_mono hfg c h.1, Html.everyL_mono hfg cs h.2⟩
end

/-- A node of a sound document that is not a document has its children in its tree, if it has any. -/
theorem Arena.Sound.tree_cases {A : Arena NodeData} (hA : A.Sound) {n : Nat} (hn : (A.data n).kind ≠ .document) :
    (∃ tag as, (A.data n).kind = .element tag as ∧ A.tree n = .element tag as (A.forest n)) ∨ A.forest n = [] := by
  cases e : (A.data n).kind with
  | document => exact absurd e hn
  | text s => right; unfold Arena.forest; rw [hA.leaf n (.inl ⟨s, e⟩)]; rfl
  | comment s => right; unfold Arena.forest; rw [hA.leaf n (.inr ⟨s, e⟩)]; rfl
  | element tag as => left; exact ⟨tag, as, rfl, by rw [hA.wf.tree_eq, e]; rfl⟩

/-- What holds for the elements of the tree of a node holds for the elements below the node. -/
theorem Arena.Sound.every_below {A : Arena NodeData} (hA : A.Sound) {b : Nat} {f : Str → Attrs → List Html → Bool}
    (hb : Html.everyL f (A.forest b) = true) {n : Nat} (hn : A.Anc b n) :
    Html.everyL f (A.forest n) = true ∧ (n ≠ b → (A.tree n).every f = true) := by
  induction hn with
  | refl => exact ⟨hb, fun h => absurd rfl h⟩
  | step hp _ ih =>
    have ht : (A.tree _).every f = true :=
      Html.everyL_mem ih.1 _ (List.mem_map.2 ⟨_, (hA.wf.mem_iff _ _).2 hp, rfl⟩)
    refine ⟨?_, fun _ => ht⟩
    rcases hA.tree_cases (hA.nodoc _ _ hp) with ⟨tag, as, _, e2⟩ | e
    · rw [e2] at ht
      simp only [Html.every, Bool.and_eq_true] at ht
      exact ht.2
    · rw [e]; rfl

theorem Arena.Sound.element_below {A : Arena NodeData} (hA : A.Sound) {b : Nat} {f : Str → Attrs → List Html → Bool}
    (hb : Html.everyL f (A.forest b) = true) {n : Nat} (hn : A.Anc b n) (hne : n ≠ b) {tag : Str} {as : Attrs}
    (hk : (A.data n).kind = .element tag as) : f tag as (A.forest n) = true := by
  have := (hA.every_below hb hn).2 hne
  rw [hA.wf.tree_eq, hk] at this
  simp only [Html.ofKind, Html.every, Bool.and_eq_true] at this
  exact this.1

/-- The rank of a kind of node, for ranks of tags below `m`. -/
def rankOf (rank : Str → Nat) (m : Nat) : HKind → Nat
  | .element tag _ => rank tag
  | _ => m

/-- A document with the tree of a layered page is layered. -/
theorem Arena.Sound.layered_below {A : Arena NodeData} (hA : A.Sound) {b : Nat} {rank : Str → Nat} {m : Nat} {tag : Str}
    {as : Attrs} (hk : (A.data b).kind = .element tag as) (hm : rank tag < m)
    (hb : Html.layeredL rank m (rank tag) (A.forest b) = true) {n : Nat} (hn : A.Anc b n) :
    (∃ t a, (A.data n).kind = .element t a ∧ rank t < m ∧ Html.layeredL rank m (rank t) (A.forest n) = true) ∨
      A.forest n = [] := by
  induction hn with
  | refl => exact .inl ⟨tag, as, hk, hm, hb⟩
  | @step n p hp _ ih =>
    rcases ih with ⟨t, a, _, _, ih⟩ | ih
    · have ht := Html.layeredL_mem ih (A.tree n) (List.mem_map.2 ⟨_, (hA.wf.mem_iff _ _).2 hp, rfl⟩)
      rcases hA.tree_cases (hA.nodoc _ _ hp) with ⟨t', a', e1, e2⟩ | e
      · rw [e2] at ht
        simp only [Html.layered, Bool.and_eq_true, decide_eq_true_eq] at ht
        exact .inl ⟨t', a', e1, ht.1.2, ht.2⟩
      · exact .inr e
    · have : A.tree n ∈ A.forest p := List.mem_map.2 ⟨_, (hA.wf.mem_iff _ _).2 hp, rfl⟩
      rw [ih] at this
      cases this

theorem layered_of_tree {D : Document} (hD : D.arena.Sound) {b : Nat} {rank : Str → Nat} {m : Nat} {tag : Str}
    {as : Attrs} (hk : (D.arena.data b).kind = .element tag as) (hm : rank tag < m)
    (hb : Html.layeredL rank m (rank tag) (D.arena.forest b) = true) : Layered (rankOf rank m) D b := by
  intro n p hp ha
  have hmem : D.arena.tree n ∈ D.arena.forest p := List.mem_map.2 ⟨_, (hD.wf.mem_iff _ _).2 hp, rfl⟩
  rcases hD.layered_below hk hm hb ha with ⟨t, a, e1, e2, e3⟩ | e
  · have ht := Html.layeredL_mem e3 _ hmem
    have ep : (tdataOf (D.arena.data p)).kind = .element t (D.arena.data p).ns := by simp [tdataOf, e1]
    rw [ep]
    simp only [rankOf]
    cases en : (D.arena.data n).kind with
    | element t' a' =>
      rw [hD.wf.tree_eq, en] at ht
      simp only [Html.ofKind, Html.layered, Bool.and_eq_true, decide_eq_true_eq] at ht
      simp only [tdataOf, en]
      exact ht.1.1
    | text s => simpa [tdataOf, en] using e2
    | comment s => simpa [tdataOf, en] using e2
    | document => exact absurd en (hD.nodoc _ _ hp)
  · rw [e] at hmem
    cases hmem

namespace Reader

mutual
/-- The elements of a readable tree. -/
theorem every_readable : ∀ (t : Html) {stack : List Str}, t.readable stack = true →
    t.every (fun tag as _ => okTag tag && as.all okAttr && tag != "body".toList) = true
  | .text _, _, _ => rfl
  | .comment _, _, _ => rfl
  | .document, _, _ => rfl
  | .element tag as cs, stack, h => by
    simp only [Html.readable, Bool.and_eq_true] at h
    obtain ⟨⟨⟨⟨⟨h1, h2⟩, _⟩, h4⟩, _⟩, h6⟩ := h
    simp only [Html.every, Bool.and_eq_true]
    refine ⟨⟨⟨h1, h2⟩, by simpa using (fits_ne h4).2.1⟩, ?_⟩
    split at h6
    · rw [List.isEmpty_iff] at h6; subst h6; rfl
    · split at h6
      · unfold Html.okRawKids at h6
        split at h6
        · rfl
        · rfl
        · cases h6
      · simp only [Bool.and_eq_true] at h6
        exact everyL_readable cs h6.2
theorem everyL_readable : ∀ (cs : List Html) {stack : List Str}, Html.readableL stack cs = true →
    Html.everyL (fun tag as _ => okTag tag && as.all okAttr && tag != "body".toList) cs = true
  | [], _, _ => rfl
  | c :: cs, stack, h => by
    simp only [Html.readableL, Bool.and_eq_true] at h
    simp only [Html.everyL, Bool.and_eq_true]
    exact ⟨every_readable c h.1, everyL_readable cs h.2⟩
end

theorem lowerCase_of_okTag {tag : Str} (h : okTag tag = true) : LowerCase tag := by
  rw [lowerCase_iff]
  cases tag with
  | nil => simp [okTag] at h
  | cons c cs =>
    simp only [okTag, Bool.and_eq_true, List.all_eq_true] at h
    intro d hd hh
    have hu : isUpper d = false := by
      rcases List.mem_cons.1 hd with rfl | hd
      · exact (okTagChar_iff.1 h.1.2).2.2.2.2
      · exact (okTagChar_iff.1 (h.2 d hd)).2.2.2.2
    simp only [isUpper, Bool.and_eq_false_iff, decide_eq_false_iff_not] at hu
    rcases hu with hu | hu
    · exact hu hh.1
    · exact hu hh.2

end Reader
end Hotmeal
