import Verif.Lemmas.Browser
import Verif.Props.RoundTrip

set_option autoImplicit false
set_option linter.unusedSectionVars false

/-!
# Copies of a subtree

Two arenas that hold the same tree, read as values, are related by a map of nodes.
-/

namespace Hotmeal

mutual
/-- The tree with attribute names replaced by how they are written. -/
def Html.unq : Html → Html
  | .element tag attrs cs =>
    .element tag (attrs.map fun kv => (⟨none, [], serName kv.1⟩, kv.2)) (Html.unqL cs)
  | .document => .document
  | .text s => .text s
  | .comment s => .comment s
/-- `unq` for lists. -/
def Html.unqL : List Html → List Html
  | [] => []
  | c :: cs => Html.unq c :: Html.unqL cs
end

theorem Html.unqL_eq (cs : List Html) : Html.unqL cs = cs.map Html.unq := by
  induction cs with
  | nil => rfl
  | cons c cs ih => simp [Html.unqL, ih]

theorem Attrs.unq_iff (a a' : Attrs) :
    (a'.map fun kv => ((⟨none, [], serName kv.1⟩ : QualName), kv.2)) =
      (a.map fun kv => (⟨none, [], serName kv.1⟩, kv.2)) ↔ a'.written = a.written := by
  have e : ∀ b : Attrs, (b.map fun kv => ((⟨none, [], serName kv.1⟩ : QualName), kv.2)) =
      b.written.map fun kv => (⟨none, [], kv.1⟩, kv.2) := by
    intro b; simp [Attrs.written, List.map_map, Function.comp_def]
  rw [e, e]
  constructor
  · intro h
    refine List.map_inj_right ?_ |>.1 h
    rintro ⟨x, y⟩ ⟨x', y'⟩ e
    simpa using e
  · intro h; rw [h]

/-- Written names do not change the serialization. -/
theorem Html.ser_unq (t : Html) : ∀ raw, ser raw t.unq = ser raw t := by
  refine Html.ind (P := fun t => ∀ raw, ser raw t.unq = ser raw t) (fun _ => rfl) ?_ (fun _ _ => rfl)
    (fun _ _ => rfl) t
  intro tag attrs cs ih raw
  have h1 : serAttrs (attrs.map fun kv => (⟨none, [], serName kv.1⟩, kv.2)) = serAttrs attrs := by
    simp only [serAttrs, List.flatMap_map]
    congr 1
  have h2 : ∀ r, serL r (Html.unqL cs) = serL r cs := by
    intro r
    rw [Html.unqL_eq, serL_eq, serL_eq, List.flatMap_map]
    exact flatMap_congr' fun c hc => ih c hc r
  simp only [Html.unq, ser, h1, h2]
where
  flatMap_congr' {α β : Type} {l : List α} {f g : α → List β} (h : ∀ x ∈ l, f x = g x) :
      l.flatMap f = l.flatMap g := by
    induction l with
    | nil => rfl
    | cons a l ih =>
      rw [List.flatMap_cons, List.flatMap_cons, h a (by simp), ih fun x hx => h x (by simp [hx])]

namespace Agree

variable {N : QualName → Prop} {root eb : Nat} {φ : Nat → Nat} {L : Nat → Prop}
  {D E : Arena NodeData} {s t : Slots}

theorem tree (h : Agree N root eb φ L D s E t) : ∀ n, L n → (E.tree (φ n)).unq = (D.tree n).unq := by
  refine h.dwf.induct_down ?_
  intro n ih hn
  rw [h.ewf.tree_eq, h.dwf.tree_eq]
  have hf : (E.forest (φ n)).map Html.unq = (D.forest n).map Html.unq := by
    simp only [Arena.forest, h.kids n hn, List.map_map]
    apply List.map_congr_left
    intro m hm
    exact ih m hm (h.down n m hn hm)
  have hd : KindSim N (D.data n).kind (E.data (φ n)).kind := h.data n hn
  cases e : (D.data n).kind with
  | element tag a =>
    rw [e] at hd
    obtain ⟨a', e', hw, _⟩ := hd
    rw [e']
    simp only [Html.ofKind, Html.unq, Html.unqL_eq, hf, (Attrs.unq_iff a a').2 hw]
  | document => rw [e] at hd; rw [show (E.data (φ n)).kind = .document from hd]; rfl
  | text x => rw [e] at hd; rw [show (E.data (φ n)).kind = .text x from hd]; rfl
  | comment x => rw [e] at hd; rw [show (E.data (φ n)).kind = .comment x from hd]; rfl

end Agree

/-! ### Paths below a node -/

theorem navLoop_concat {A : Arena NodeData} {r n i : Nat} {q : List Nat} :
    navLoop A r (q ++ [i]) = .ok n ↔ ∃ p, navLoop A r q = .ok p ∧ (A.children p)[i]? = some n := by
  rw [navLoop_append]
  cases navLoop A r q with
  | error e => simp [bind, Except.bind]
  | ok p =>
    simp only [bind, Except.bind, navLoop]
    constructor
    · intro h
      refine ⟨p, rfl, ?_⟩
      cases e : (A.children p)[i]? with
      | none => rw [e] at h; cases h
      | some c => rw [e] at h; cases h; rfl
    · rintro ⟨p', e, h⟩
      cases e
      rw [h]

theorem Arena.WF.navLoop_anc {A : Arena NodeData} (h : A.WF) {r n : Nat} {q : List Nat}
    (hq : navLoop A r q = .ok n) : A.Anc r n := by
  induction q generalizing r with
  | nil => cases hq; exact .refl
  | cons i is ih =>
    simp only [navLoop] at hq
    cases e : (A.children r)[i]? with
    | none => rw [e] at hq; cases hq
    | some c =>
      rw [e] at hq
      exact (Arena.Anc.step ((h.mem_iff _ _).1 (List.mem_of_getElem? e)) .refl).trans (ih hq)

theorem Arena.WF.exists_path {A : Arena NodeData} (h : A.WF) {r n : Nat} (ha : A.Anc r n) :
    ∃ q, navLoop A r q = .ok n := by
  induction ha with
  | refl => exact ⟨[], rfl⟩
  | @step n p hp _ ih =>
    obtain ⟨q, hq⟩ := ih
    exact ⟨q ++ [Arena.posIn (A.children p) n], navLoop_concat.2 ⟨p, hq,
      Arena.getElem?_posIn ((h.mem_iff _ _).2 hp)⟩⟩

theorem Arena.WF.path_unique {A : Arena NodeData} (h : A.WF) {r : Nat} : ∀ (q q' : List Nat) (n : Nat),
    navLoop A r q = .ok n → navLoop A r q' = .ok n → q = q' := by
  have key : ∀ (k : Nat) (q q' : List Nat) (n : Nat), q.length = k →
      navLoop A r q = .ok n → navLoop A r q' = .ok n → q = q' := by
    intro k
    induction k with
    | zero =>
      intro q q' n hk h1 h2
      rw [List.length_eq_zero_iff.1 hk] at h1 ⊢
      cases h1
      rcases List.eq_nil_or_concat q' with rfl | ⟨l, i, rfl⟩
      · rfl
      · exfalso
        rw [List.concat_eq_append] at h2
        obtain ⟨p, hp, hi⟩ := navLoop_concat.1 h2
        have h3 := (h.mem_iff _ _).1 (List.mem_of_getElem? hi)
        exact h.self_parent_ne h3 (h.anc_antisymm (.step h3 .refl) (h.navLoop_anc hp))
    | succ k ih =>
      intro q q' n hk h1 h2
      rcases List.eq_nil_or_concat q with rfl | ⟨l, i, rfl⟩
      · cases hk
      · rw [List.concat_eq_append] at *
        obtain ⟨p, hp, hi⟩ := navLoop_concat.1 h1
        have h3 := (h.mem_iff _ _).1 (List.mem_of_getElem? hi)
        rcases List.eq_nil_or_concat q' with rfl | ⟨l', i', rfl⟩
        · exfalso
          cases h2
          exact h.self_parent_ne h3 (h.anc_antisymm (.step h3 .refl) (h.navLoop_anc hp))
        · rw [List.concat_eq_append] at *
          obtain ⟨p', hp', hi'⟩ := navLoop_concat.1 h2
          have h4 := (h.mem_iff _ _).1 (List.mem_of_getElem? hi')
          rw [h3] at h4; cases h4
          rw [ih l l' p (by simpa using hk) hp hp',
            List.nodup_getElem?_inj (h.nodup p) hi hi']
  exact fun q q' n => key q.length q q' n rfl

/-! ### From equal trees to a map of nodes -/

theorem Html.ofKind_unq_inj {N : QualName → Prop} {k k' : NodeKind} {cs cs' : List Html}
    (hN : ∀ tag a, k = .element tag a → (∀ kv ∈ a, N kv.1) ∧ a.keys.Nodup)
    (h : (Html.ofKind k' cs').unq = (Html.ofKind k cs).unq) :
    KindSim N k k' ∧ (k.IsElement → cs'.map Html.unq = cs.map Html.unq) := by
  cases k with
  | element tag a =>
    cases k' with
    | element tag' a' =>
      simp only [Html.ofKind, Html.unq, Html.element.injEq, Html.unqL_eq] at h
      obtain ⟨rfl, h2, h3⟩ := h
      exact ⟨⟨a', rfl, (Attrs.unq_iff a a').1 h2, (hN _ a rfl).1, (hN _ a rfl).2⟩, fun _ => h3⟩
    | _ => simp [Html.ofKind, Html.unq] at h
  | document =>
    refine ⟨?_, fun ⟨_, _, e⟩ => by cases e⟩
    cases k' <;> simp [Html.ofKind, Html.unq] at h
    rfl
  | text s =>
    refine ⟨?_, fun ⟨_, _, e⟩ => by cases e⟩
    cases k' <;> simp [Html.ofKind, Html.unq] at h
    subst h; rfl
  | comment s =>
    refine ⟨?_, fun ⟨_, _, e⟩ => by cases e⟩
    cases k' <;> simp [Html.ofKind, Html.unq] at h
    subst h; rfl

/-- Only elements have children below `r`. -/
def Arena.ElemBelow (A : Arena NodeData) (r : Nat) : Prop :=
  ∀ n, A.Anc r n → A.children n ≠ [] → (A.data n).kind.IsElement

/-- All attribute names below `b` satisfy `N`, and no element has the same name twice. -/
def Arena.NamesBelow (N : QualName → Prop) (A : Arena NodeData) (b : Nat) : Prop :=
  ∀ n tag attrs, A.Anc b n → (A.data n).kind = .element tag attrs →
    (∀ kv ∈ attrs, N kv.1) ∧ attrs.keys.Nodup

theorem agree_of_tree {N : QualName → Prop} {D E : Arena NodeData} {b eb : Nat} (hD : D.WF)
    (hE : E.WF) (hb : b < D.next) (heb : eb < E.next) (hbp : ∃ p, D.parent b = some p)
    (hDe : D.ElemBelow b) (hEe : E.ElemBelow eb)
    (hN : D.NamesBelow N b) (ht : (E.tree eb).unq = (D.tree b).unq) :
    ∃ φ, Agree N b eb φ (D.Anc b) D (Arena.upd (fun _ => none) 0 (some b)) E (fun _ => none) := by
  -- corresponding nodes have the same tree
  have hpath : ∀ (k : Nat) (q : List Nat) (n : Nat), q.length = k → navLoop D b q = .ok n →
      ∃ m, navLoop E eb q = .ok m ∧ (E.tree m).unq = (D.tree n).unq := by
    intro k
    induction k with
    | zero =>
      intro q n hk h1
      rw [List.length_eq_zero_iff.1 hk] at h1 ⊢
      cases h1
      exact ⟨eb, rfl, ht⟩
    | succ k ih =>
      intro q n hk h1
      rcases List.eq_nil_or_concat q with rfl | ⟨l, i, rfl⟩
      · cases hk
      · rw [List.concat_eq_append] at *
        obtain ⟨p, hp, hi⟩ := navLoop_concat.1 h1
        obtain ⟨m, hm, e⟩ := ih l p (by simpa using hk) hp
        rw [hE.tree_eq, hD.tree_eq] at e
        have hap := hD.navLoop_anc hp
        have hne : D.children p ≠ [] := by intro e2; rw [e2] at hi; cases hi
        obtain ⟨_, h3⟩ := Html.ofKind_unq_inj (fun tag a ek => hN p tag a hap ek) e
        have h3 := h3 (hDe p hap hne)
        simp only [Arena.forest, List.map_map] at h3
        have h4 := congrArg (·[i]?) h3
        simp only [List.getElem?_map, hi, Option.map_some, Function.comp_apply] at h4
        cases e5 : (E.children m)[i]? with
        | none => rw [e5] at h4; cases h4
        | some c =>
          rw [e5] at h4
          exact ⟨c, navLoop_concat.2 ⟨m, hm, e5⟩, by simpa using h4⟩
  have hφ : ∀ n, ∃ m, D.Anc b n → ∃ q, navLoop D b q = .ok n ∧ navLoop E eb q = .ok m ∧
      (E.tree m).unq = (D.tree n).unq := by
    intro n
    by_cases ha : D.Anc b n
    · obtain ⟨q, hq⟩ := hD.exists_path ha
      obtain ⟨m, hm, e⟩ := hpath _ q n rfl hq
      exact ⟨m, fun _ => ⟨q, hq, hm, e⟩⟩
    · exact ⟨0, fun h => absurd h ha⟩
  obtain ⟨φ, hφ⟩ := Classical.axiomOfChoice hφ
  have hroot : φ b = eb := by
    obtain ⟨q, h1, h2, _⟩ := hφ b .refl
    rw [hD.path_unique q [] b h1 rfl] at h2
    cases h2; rfl
  have hsim : ∀ n, D.Anc b n → KindSim N (D.data n).kind (E.data (φ n)).kind ∧
      ((D.data n).kind.IsElement → (E.forest (φ n)).map Html.unq = (D.forest n).map Html.unq) := by
    intro n ha
    obtain ⟨_, _, _, e⟩ := hφ n ha
    rw [hE.tree_eq, hD.tree_eq] at e
    exact Html.ofKind_unq_inj (fun tag a ek => hN n tag a ha ek) e
  refine ⟨φ, hD, hE, ?_, ?_, ?_, ?_, ?_, fun n ha => (hsim n ha).1, ?_, .refl, hroot, by simp, ?_⟩
  · intro n ha
    rcases ha.cases' with e | ⟨p, hp, _⟩
    · rw [← e]; exact hb
    · exact (hD.lt_of_parent _ _ hp).1
  · intro n ha
    obtain ⟨q, _, h2, _⟩ := hφ n ha
    rcases (hE.navLoop_anc h2).cases' with e | ⟨p, hp, _⟩
    · rw [← e]; exact heb
    · exact (hE.lt_of_parent _ _ hp).1
  · intro n m hn hm e
    obtain ⟨q, h1, h2, _⟩ := hφ n hn
    obtain ⟨q', h3, h4, _⟩ := hφ m hm
    rw [e] at h2
    have := hE.path_unique q q' _ h2 h4
    subst this
    rw [h1] at h3; cases h3; rfl
  · intro n hn
    obtain ⟨q, h1, h2, _⟩ := hφ n hn
    by_cases hel : (D.data n).kind.IsElement
    · have hf := (hsim n hn).2 hel
      simp only [Arena.forest] at hf
      have hlen : (E.children (φ n)).length = (D.children n).length := by
        have := congrArg List.length hf; simpa using this
      apply List.ext_getElem?
      intro i
      rw [List.getElem?_map]
      cases ei : (D.children n)[i]? with
      | none =>
        rw [List.getElem?_eq_none_iff] at ei
        rw [List.getElem?_eq_none (by omega)]; rfl
      | some c =>
        have hcp := (hD.mem_iff _ _).1 (List.mem_of_getElem? ei)
        obtain ⟨q', h3, h4, _⟩ := hφ c (.step hcp hn)
        have h5 := navLoop_concat.2 ⟨n, h1, ei⟩
        rw [hD.path_unique q' _ c h3 h5] at h4
        obtain ⟨p, hp, hi⟩ := navLoop_concat.1 h4
        rw [h2] at hp; cases hp
        rw [hi]; rfl
    · have h3 : D.children n = [] := Classical.byContradiction fun h => hel (hDe n hn h)
      rw [h3]
      refine Classical.byContradiction fun h => hel ?_
      have := hEe (φ n) (hE.navLoop_anc h2) h
      have hk := (hsim n hn).1
      obtain ⟨tag, a, ek⟩ := this
      cases e : (D.data n).kind with
      | element t a => exact ⟨t, a, rfl⟩
      | document => rw [e] at hk; rw [show (E.data (φ n)).kind = .document from hk] at ek; cases ek
      | text x => rw [e] at hk; rw [show (E.data (φ n)).kind = .text x from hk] at ek; cases ek
      | comment x => rw [e] at hk; rw [show (E.data (φ n)).kind = .comment x from hk] at ek; cases ek
  · intro n m hn hm; exact .step ((hD.mem_iff _ _).1 hm) hn
  · intro n hn e
    exfalso
    rcases hn.cases' with e2 | ⟨p, hp, _⟩
    · obtain ⟨p, hp⟩ := hbp
      rw [e2] at hp; rw [hp] at e; cases e
    · rw [hp] at e; cases e
  · intro k n hk hs
    rw [Arena.upd_ne _ _ hk] at hs; cases hs

end Hotmeal
