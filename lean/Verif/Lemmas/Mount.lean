import Verif.Lemmas.Copy
import Verif.Lemmas.Traverse
import Verif.Model.Mount

set_option autoImplicit false
set_option linter.unusedSectionVars false

/-!
# Which element a selector finds
-/

namespace Hotmeal
namespace Mount

/-- `E` and `E'` differ at and below `m` only: every node outside is the same, and `m` has its place and its
tag. -/
structure SamePlace (E E' : Arena NodeData) (m : Nat) : Prop where
  out : ∀ n, n < E.next → ¬ E.Anc m n →
    E'.parent n = E.parent n ∧ E'.children n = E.children n ∧ E'.data n = E.data n
  place : E'.parent m = E.parent m
  tag : tagOf E' m = tagOf E m

/-- The attributes of an element, with names as they are written. -/
def looks (E : Arena NodeData) (n : Nat) : List (Str × Str) := match (E.data n).kind with
  | .element _ attrs => attrs.map fun kv => (serName kv.1, kv.2)
  | _ => []

/-- `E` and `E'` differ below `m` only: every node outside is the same, and `m` has its place, its tag and
its attributes. -/
structure SameAround (E E' : Arena NodeData) (m : Nat) : Prop extends SamePlace E E' m where
  attrs : looks E' m = looks E m

/-- The selector does not look into the content of the elements it is asked about: whether a node matches
depends only on what is around the node. This holds for selectors made of tags, identifiers, classes,
attributes, siblings and ancestors, and not for `:empty` and `:has()`. -/
def Outer (sel : Selector) : Prop := ∀ (E E' : Arena NodeData) (m : Nat), E.WF → E'.WF → E.next ≤ E'.next →
  m < E.next → SameAround E E' m → ∀ n, n < E.next → (¬ E.Anc m n ∨ n = m) → sel E' n = sel E n

/-- `"body"`, or a selector that does not look into the mount point. -/
def Target.Outer : Target → Prop
  | .body => True
  | .css sel => Mount.Outer sel

variable {E E' : Arena NodeData} {m : Nat}

theorem not_anc_of_parent (hE : E.WF) {n p : Nat} (hn : ¬ E.Anc m n ∨ n = m) (hp : E.parent n = some p) :
    ¬ E.Anc m p := by
  intro ha
  rcases hn with h | rfl
  · exact h (.step hp ha)
  · exact hE.self_parent_ne hp (hE.anc_antisymm (.step hp .refl) ha)

theorem isElement_eq (E : Arena NodeData) (n : Nat) : isElement E n = (tagOf E n).isSome := by
  unfold isElement tagOf
  cases (E.data n).kind <;> rfl

theorem find_written (a : Attrs) (name : Str) :
    (a.find? fun kv => serName kv.1 == name).map (·.2) =
      ((a.map fun kv => (serName kv.1, kv.2)).find? fun kv => kv.1 == name).map (·.2) := by
  induction a with
  | nil => rfl
  | cons kv a ih =>
    simp only [List.map_cons, List.find?_cons]
    cases serName kv.1 == name
    · exact ih
    · rfl

theorem attrValue_eq (E : Arena NodeData) (n : Nat) (name : Str) :
    attrValue E n name = ((looks E n).find? fun kv => kv.1 == name).map (·.2) := by
  unfold attrValue looks
  cases (E.data n).kind with
  | element t a => exact find_written a name
  | _ => rfl

theorem SameAround.attrValue (h : SameAround E E' m) {n : Nat} (hn : n < E.next) (ha : ¬ E.Anc m n ∨ n = m)
    (name : Str) : attrValue E' n name = attrValue E n name := by
  rcases ha with ha | rfl
  · unfold Mount.attrValue; rw [(h.out n hn ha).2.2]
  · rw [attrValue_eq, attrValue_eq, h.attrs]

namespace SamePlace

theorem parent (h : SamePlace E E' m) {n : Nat} (hn : n < E.next) (ha : ¬ E.Anc m n ∨ n = m) :
    E'.parent n = E.parent n := by
  rcases ha with ha | rfl
  · exact (h.out n hn ha).1
  · exact h.place

theorem tagOf (h : SamePlace E E' m) {n : Nat} (hn : n < E.next) (ha : ¬ E.Anc m n ∨ n = m) :
    tagOf E' n = tagOf E n := by
  rcases ha with ha | rfl
  · unfold Mount.tagOf; rw [(h.out n hn ha).2.2]
  · exact h.tag

theorem isElement (h : SamePlace E E' m) {n : Nat} (hn : n < E.next) (ha : ¬ E.Anc m n ∨ n = m) :
    isElement E' n = isElement E n := by
  rw [isElement_eq, isElement_eq, h.tagOf hn ha]

/-- Nodes outside and the mount point have the same ancestors. -/
theorem anc_iff (h : SamePlace E E' m) (hE : E.WF) {x n : Nat} (hn : n < E.next)
    (ha : ¬ E.Anc m n ∨ n = m) : E'.Anc x n ↔ E.Anc x n := by
  constructor
  · intro hx
    induction hx with
    | refl => exact .refl
    | @step n p hp _ ih =>
      rw [h.parent hn ha] at hp
      exact .step hp (ih (hE.lt_of_parent _ _ hp).2 (.inl (not_anc_of_parent hE ha hp)))
  · intro hx
    induction hx with
    | refl => exact .refl
    | @step n p hp _ ih =>
      exact .step (by rw [h.parent hn ha]; exact hp)
        (ih (hE.lt_of_parent _ _ hp).2 (.inl (not_anc_of_parent hE ha hp)))

theorem refl : SamePlace E E m := ⟨fun _ _ _ => ⟨rfl, rfl, rfl⟩, rfl, rfl⟩

/-- Outside is the same in the next page as well. -/
theorem anc_mount (h : SamePlace E E' m) (hE : E.WF) {n : Nat} (hn : n < E.next)
    (ha : ¬ E.Anc m n) : ¬ E'.Anc m n := fun hx => ha ((h.anc_iff hE hn (.inl ha)).1 hx)

theorem trans {E2 : Arena NodeData} (h : SamePlace E E' m) (h2 : SamePlace E' E2 m) (hE : E.WF)
    (hle : E.next ≤ E'.next) : SamePlace E E2 m := by
  refine ⟨fun n hn ha => ?_, h2.place.trans h.place, h2.tag.trans h.tag⟩
  obtain ⟨h3, h4, h5⟩ := h.out n hn ha
  obtain ⟨h6, h7, h8⟩ := h2.out n (by omega) (h.anc_mount hE hn ha)
  exact ⟨h6.trans h3, h7.trans h4, h8.trans h5⟩

end SamePlace

theorem anc_lt (hE : E.WF) {x n : Nat} (hn : n < E.next) (h : E.Anc x n) : x < E.next := by
  induction h with
  | refl => exact hn
  | step hp _ ih => exact ih (hE.lt_of_parent _ _ hp).2

theorem above_of (hE : E.WF) {x n : Nat} (ha : ¬ E.Anc m n ∨ n = m) (hx : E.Anc x n) (hne : x ≠ n) :
    ¬ E.Anc m x := by
  intro hmx
  rcases ha with h | rfl
  · exact h (hmx.trans hx)
  · exact hne (hE.anc_antisymm hx hmx)

/-- The selectors of the model do not look into the elements. -/
theorem Css.outer (s : Css) : Outer s.matches := by
  intro E E' m hE hE' hle hm h
  induction s with
  | any => exact fun n hn ha => h.isElement hn ha
  | type tag => intro n hn ha; simp only [Css.matches, h.tagOf hn ha]
  | id s => intro n hn ha; simp only [Css.matches, h.attrValue hn ha]
  | cls s => intro n hn ha; simp only [Css.matches, h.attrValue hn ha]
  | has s => intro n hn ha; simp only [Css.matches, h.attrValue hn ha]
  | attr s t => intro n hn ha; simp only [Css.matches, h.attrValue hn ha]
  | both a b iha ihb => intro n hn ha; simp only [Css.matches, iha n hn ha, ihb n hn ha]
  | either a b iha ihb => intro n hn ha; simp only [Css.matches, iha n hn ha, ihb n hn ha]
  | child a b iha ihb =>
    intro n hn ha
    simp only [Css.matches, ihb n hn ha, h.parent hn ha]
    cases e : E.parent n with
    | none => rfl
    | some p => simp only [iha p (hE.lt_of_parent _ _ e).2 (.inl (not_anc_of_parent hE ha e))]
  | inside a b iha ihb =>
    intro n hn ha
    simp only [Css.matches, ihb n hn ha]
    congr 1
    rw [Bool.eq_iff_iff]
    simp only [List.any_eq_true, List.mem_range, Bool.and_eq_true, bne_iff_ne, hE.isAncestorOrSelf_iff,
      hE'.isAncestorOrSelf_iff, h.anc_iff hE hn ha]
    constructor
    · rintro ⟨x, _, ⟨h1, h2⟩, h3⟩
      have hx := anc_lt hE hn h2
      exact ⟨x, hx, ⟨h1, h2⟩, by rw [← iha x hx (.inl (above_of hE ha h2 h1))]; exact h3⟩
    · rintro ⟨x, hx, ⟨h1, h2⟩, h3⟩
      exact ⟨x, by omega, ⟨h1, h2⟩, by rw [iha x hx (.inl (above_of hE ha h2 h1))]; exact h3⟩

theorem find?_congr' {α : Type} {l : List α} {p q : α → Bool} (h : ∀ x ∈ l, p x = q x) :
    l.find? p = l.find? q := by
  induction l with
  | nil => rfl
  | cons a l ih =>
    rw [List.find?_cons, List.find?_cons, h a (by simp), ih fun x hx => h x (by simp [hx])]

theorem findSome?_congr' {α β : Type} {l : List α} {p q : α → Option β} {y : β} (h : l.findSome? p = some y)
    (h1 : ∀ x ∈ l, p x = none → q x = none) (h2 : ∀ x ∈ l, p x = some y → q x = some y) :
    l.findSome? q = some y := by
  induction l with
  | nil => cases h
  | cons a l ih =>
    rw [List.findSome?_cons] at h ⊢
    cases e : p a with
    | none =>
      rw [e] at h
      rw [h1 a (by simp) e]
      exact ih h (fun x hx => h1 x (by simp [hx])) (fun x hx => h2 x (by simp [hx]))
    | some z =>
      rw [e] at h
      cases h
      rw [h2 a (by simp) e]

/-- A subtree that does not contain the mount point is listed in the same order. -/
theorem descendants_same (h : SamePlace E E' m) (hE : E.WF) (hE' : E'.WF) :
    ∀ n, n < E.next → ¬ E.Anc m n → ¬ E.Anc n m → E'.descendants n = E.descendants n := by
  refine hE.induct_down ?_
  intro n ih hn h1 h2
  rw [hE.descendants_flatMap, hE'.descendants_flatMap, (h.out n hn h1).2.1]
  congr 1
  have : ∀ l : List Nat, (∀ c ∈ l, E'.descendants c = E.descendants c) →
      l.flatMap E'.descendants = l.flatMap E.descendants := by
    intro l
    induction l with
    | nil => intro _; rfl
    | cons c l ihl =>
      intro hl
      rw [List.flatMap_cons, List.flatMap_cons, hl c (by simp), ihl fun x hx => hl x (by simp [hx])]
  apply this
  intro c hc
  have hp := (hE.mem_iff _ _).1 hc
  refine ih c hc (hE.lt_of_parent _ _ hp).1 (fun ha => ?_) (fun ha => h2 ((Arena.Anc.step hp .refl).trans ha))
  rcases ha.cases' with e | ⟨q, hq, ha'⟩
  · exact h2 (e ▸ .step hp .refl)
  · rw [hp] at hq; cases hq; exact h1 ha'

/-- The mount point is found again: what comes before it in the page is the same. -/
theorem querySelector_same (h : SameAround E E' m) (hE : E.WF) (hE' : E'.WF) (hle : E.next ≤ E'.next)
    (hm : m < E.next) {sel : Selector} (hs : Outer sel) : ∀ n, n < E.next → (¬ E.Anc m n ∨ n = m) →
    querySelector E n sel = some m → querySelector E' n sel = some m := by
  unfold querySelector
  have hsel : ∀ n, n < E.next → (¬ E.Anc m n ∨ n = m) →
      (isElement E' n && sel E' n) = (isElement E n && sel E n) := fun n hn ha => by
    rw [h.isElement hn ha, hs E E' m hE hE' hle hm h n hn ha]
  refine hE.induct_down ?_
  intro n ih hn ha hq
  rw [hE.descendants_flatMap, List.find?_cons] at hq
  rw [hE'.descendants_flatMap, List.find?_cons, hsel n hn ha]
  cases e : (isElement E n && sel E n) with
  | true => rw [e] at hq; exact hq
  | false =>
    rw [e] at hq
    simp only at hq ⊢
    rcases ha with ha | rfl
    · rw [List.find?_flatMap] at hq ⊢
      rw [(h.out n hn ha).2.1]
      refine findSome?_congr' hq ?_ ?_
      · intro c hc hnone
        have hp := (hE.mem_iff _ _).1 hc
        have hcl := (hE.lt_of_parent _ _ hp).1
        by_cases hcm : E.Anc c m
        · exfalso
          -- the mount point matches, and it is below `c`
          have hmem := (hE.mem_descendants c m).2 hcm
          have h1 := List.find?_eq_none.1 hnone m hmem
          obtain ⟨d, _, hd⟩ := List.exists_of_findSome?_eq_some hq
          have h2 := List.find?_some (p := fun n => isElement E n && sel E n) hd
          exact h1 h2
        · have hnm : ¬ E.Anc m c := by
            intro hx
            rcases hx.cases' with e | ⟨q, hq, ha'⟩
            · exact hcm (e ▸ .refl)
            · rw [hp] at hq; cases hq; exact ha ha'
          rw [descendants_same h.toSamePlace hE hE' c hcl hnm hcm]
          rw [← hnone]
          refine find?_congr' fun x hx => ?_
          have hcx := (hE.mem_descendants c x).1 hx
          refine hsel x ?_ (.inl fun hmx => ?_)
          · rcases hcx.cases' with e | ⟨q, hq, _⟩
            · exact e ▸ hcl
            · exact (hE.lt_of_parent _ _ hq).1
          · rcases Arena.anc_total hcx hmx with h | h
            · exact hcm h
            · exact hnm h
      · intro c hc hsome
        have hp := (hE.mem_iff _ _).1 hc
        refine ih c hc (hE.lt_of_parent _ _ hp).1 ?_ hsome
        by_cases e : c = m
        · exact .inr e
        · left
          intro hx
          rcases hx.cases' with e' | ⟨q, hq, ha'⟩
          · exact e e'.symm
          · rw [hp] at hq; cases hq; exact ha ha'
    · exfalso
      have h1 := List.find?_some (p := fun n => isElement E n && sel E n) hq
      simp only [e] at h1
      cases h1

theorem documentBody_same (h : SamePlace E E' m) (hE : E.WF) {doc : Nat}
    (hd : documentBody E doc = some m) : documentBody E' doc = some m := by
  unfold documentBody at hd ⊢
  simp only [bind, Option.bind] at hd ⊢
  split at hd
  · cases hd
  · next html he =>
    simp only at hd
    split at hd
    · next ht =>
      have hmem := List.mem_of_find?_eq_some he
      have hpd := (hE.mem_iff _ _).1 hmem
      have hmp := (hE.mem_iff _ _).1 (List.mem_of_find?_eq_some hd)
      have hh : ¬ E.Anc m html := not_anc_of_parent hE (.inr rfl) hmp
      have hdoc : ¬ E.Anc m doc := not_anc_of_parent hE (.inl hh) hpd
      have hl := hE.lt_of_parent _ _ hpd
      have hkid : ∀ p, ¬ E.Anc m p → ∀ c ∈ E.children p, c < E.next ∧ (¬ E.Anc m c ∨ c = m) := by
        intro p hp c hc
        have hcp := (hE.mem_iff _ _).1 hc
        refine ⟨(hE.lt_of_parent _ _ hcp).1, ?_⟩
        by_cases e : c = m
        · exact .inr e
        · left
          intro hx
          rcases hx.cases' with e' | ⟨q, hq, ha'⟩
          · exact e e'.symm
          · rw [hcp] at hq; cases hq; exact hp ha'
      rw [(h.out doc hl.2 hdoc).2.1, find?_congr' (q := isElement E) fun c hc =>
        h.isElement (hkid doc hdoc c hc).1 (hkid doc hdoc c hc).2, he]
      simp only
      rw [h.tagOf hl.1 (.inl hh), if_pos ht, (h.out html hl.1 hh).2.1]
      rw [← hd]
      exact find?_congr' fun c hc => by rw [h.tagOf (hkid html hh c hc).1 (hkid html hh c hc).2]
    · cases hd

/-- What is found is in the page. -/
theorem querySelector_anc (hE : E.WF) {doc : Nat} {sel : Selector} (h : querySelector E doc sel = some m) :
    E.Anc doc m := (hE.mem_descendants _ _).1 (List.mem_of_find?_eq_some h)

theorem documentBody_parent (hE : E.WF) {doc : Nat} (h : documentBody E doc = some m) :
    ∃ p, E.parent m = some p := by
  unfold documentBody at h
  simp only [bind, Option.bind] at h
  split at h
  · cases h
  · next html he =>
    simp only at h
    split at h
    · exact ⟨html, (hE.mem_iff _ _).1 (List.mem_of_find?_eq_some h)⟩
    · cases h

theorem resolve_lt (hE : E.WF) {doc : Nat} (hd : doc < E.next) {sel : Target}
    (h : resolveMountPoint E doc sel = .ok m) : m < E.next := by
  cases sel with
  | body =>
    simp only [resolveMountPoint] at h
    split at h
    · next b e =>
      cases h
      obtain ⟨p, hp⟩ := documentBody_parent hE e
      exact (hE.lt_of_parent _ _ hp).1
    · cases h
  | css s =>
    simp only [resolveMountPoint] at h
    split at h
    · next b e =>
      cases h
      rcases (querySelector_anc hE e).cases' with e | ⟨p, hp, _⟩
      · exact e ▸ hd
      · exact (hE.lt_of_parent _ _ hp).1
    · cases h

/-- The mount point is found again. -/
theorem resolve_same (h : SamePlace E E' m) (hE : E.WF) (hE' : E'.WF) (hle : E.next ≤ E'.next)
    {doc : Nat} {sel : Target} (hs : sel = .body ∨ sel.Outer ∧ looks E' m = looks E m)
    (hm : m < E.next) (hr : resolveMountPoint E doc sel = .ok m) : resolveMountPoint E' doc sel = .ok m := by
  cases sel with
  | body =>
    simp only [resolveMountPoint] at hr ⊢
    cases e : documentBody E doc with
    | none => rw [e] at hr; cases hr
    | some b =>
      rw [e] at hr; cases hr
      simp only [documentBody_same h hE e]
  | css sel =>
    obtain ⟨hs, hl⟩ := hs.resolve_left (by simp)
    simp only [resolveMountPoint] at hr ⊢
    cases e : querySelector E doc sel with
    | none => rw [e] at hr; cases hr
    | some b =>
      rw [e] at hr; cases hr
      have hd := querySelector_anc hE e
      have hda : ¬ E.Anc m doc ∨ doc = m := by
        by_cases e : doc = m
        · exact .inr e
        · exact .inl fun hx => e (hE.anc_antisymm hd hx)
      simp only [querySelector_same ⟨h, hl⟩ hE hE' hle hm hs doc (anc_lt hE hm hd) hda e]

end Mount
end Hotmeal
