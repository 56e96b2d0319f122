import Verif.Props.Patches
import Verif.Props.Browser

set_option autoImplicit false
set_option linter.unusedSectionVars false

/-!
# C60: the library and the page agree on patches that say what they mean

`Neutral` patches are those whose effect does not depend on the respects in which the two appliers differ.
-/

namespace Hotmeal

mutual
/-- Every element has attributes with different names from `N`. -/
def Html.Named (N : QualName → Prop) : Html → Prop
  | .element _ a cs => (∀ kv ∈ a, N kv.1) ∧ a.keys.Nodup ∧ Html.NamedL N cs
  | _ => True
/-- `Named` for every tree of a list. -/
def Html.NamedL (N : QualName → Prop) : List Html → Prop
  | [] => True
  | c :: cs => c.Named N ∧ Html.NamedL N cs
end

/-- There is room: the patch gives a slot for the node at that place, or the place is beyond the last child. -/
def Store.Room (σ : Store) (at_ : Path) (slot : Option Nat) : Prop :=
  slot ≠ none ∨ ∀ pos tag attrs cs, at_.getLast? = some pos → σ.find at_.dropLast = some (.element tag attrs cs) →
    cs.length ≤ pos

/-- A patch that means the same to the library and to the page: names are from `N`, there is room for what is
put somewhere, an element gets no text, and it is no report about an opaque element. -/
def Patch.Neutral (N : QualName → Prop) (σ : Store) : Patch → Prop
  | .insertElement at_ _ attrs cs slot =>
    σ.Room at_ slot ∧ (∀ kv ∈ attrs, N kv.1) ∧ attrs.keys.Nodup ∧ InsertContent.FineL N cs
  | .insertText at_ _ slot => σ.Room at_ slot
  | .insertComment at_ _ slot => σ.Room at_ slot
  | .remove _ => True
  | .move from_ to_ slot => ∀ t σ', σ.take from_ = some (t, σ') → σ'.Room to_ slot
  | .setText _ _ => True
  | .setAttribute _ name _ => N name
  | .removeAttribute _ name => N name
  | .updateProps path changes => (changes.map PropChange.name).Nodup ∧
    (∀ c ∈ changes, ∀ q, c.name = .attr q → N q) ∧
    ∀ tag attrs cs, σ.find path = some (.element tag attrs cs) → textChange changes = none
  | .opaqueChanged _ _ => False

/-- Every patch is neutral when its turn comes. -/
def Dialect.Neutral (d : Dialect) (N : QualName → Prop) : Store → List Patch → Prop
  | _, [] => True
  | σ, P :: ps => P.Neutral N σ ∧ ∀ σ', d.apply σ P = some σ' → d.Neutral N σ' ps

theorem Html.namedL_iff {N : QualName → Prop} {cs : List Html} :
    Html.NamedL N cs ↔ ∀ c ∈ cs, c.Named N := by
  induction cs with
  | nil => simp [Html.NamedL]
  | cons c cs ih => simp [Html.NamedL, ih]

namespace Html

variable {N : QualName → Prop}

theorem unq_element {u : Html} {tag : Str} {a : Attrs} {cs : List Html}
    (h : u.unq = (Html.element tag a cs).unq) :
    ∃ a' cs', u = .element tag a' cs' ∧ a'.written = a.written ∧ cs'.map unq = cs.map unq := by
  cases u with
  | element tag' a' cs' =>
    simp only [unq, element.injEq, Html.unqL_eq] at h
    obtain ⟨rfl, h2, h3⟩ := h
    exact ⟨a', cs', rfl, (Attrs.unq_iff a a').1 h2, h3⟩
  | document => simp [unq] at h
  | text s => simp [unq] at h
  | comment s => simp [unq] at h

theorem unq_of_element {tag : Str} {a a' : Attrs} {cs cs' : List Html} (h : a'.written = a.written)
    (hc : cs'.map unq = cs.map unq) : (Html.element tag a' cs').unq = (Html.element tag a cs).unq := by
  simp only [unq, element.injEq, Html.unqL_eq]
  exact ⟨trivial, (Attrs.unq_iff a a').2 h, hc⟩

theorem unq_get? (q : List Nat) : ∀ t : Html, t.unq.get? q = (t.get? q).map unq := by
  induction q with
  | nil => intro t; cases t <;> rfl
  | cons i q ih =>
    intro t
    cases t with
    | element tag a cs =>
      simp only [unq, get?, Html.unqL_eq, List.getElem?_map]
      cases cs[i]? with
      | none => rfl
      | some c => exact ih c
    | document => rfl
    | text s => rfl
    | comment s => rfl

theorem map_modify' {α β : Type} (f : α → β) (g : α → α) (g' : β → β) (h : ∀ x, f (g x) = g' (f x))
    (l : List α) : ∀ i, (l.modify i g).map f = (l.map f).modify i g' := by
  induction l with
  | nil => intro i; cases i <;> rfl
  | cons x l ih =>
    intro i
    cases i with
    | zero => simp [h]
    | succ i => simp [ih]

theorem unq_put (u : Html) (q : List Nat) : ∀ t : Html, (put u q t).unq = put u.unq q t.unq := by
  induction q with
  | nil => intro t; cases t <;> rfl
  | cons i q ih =>
    intro t
    cases t with
    | element tag a cs =>
      simp only [put, unq, Html.unqL_eq, element.injEq, true_and]
      exact map_modify' _ _ _ ih cs i
    | document => rfl
    | text s => rfl
    | comment s => rfl

theorem named_get? (q : List Nat) : ∀ {t u : Html}, t.Named N → t.get? q = some u → u.Named N := by
  induction q with
  | nil => intro t u h e; cases t <;> (cases e; exact h)
  | cons i q ih =>
    intro t u h e
    cases t with
    | element tag a cs =>
      simp only [get?] at e
      cases ec : cs[i]? with
      | none => rw [ec] at e; cases e
      | some c =>
        rw [ec] at e
        exact ih (namedL_iff.1 h.2.2 c (List.mem_of_getElem? ec)) e
    | document => cases e
    | text s => cases e
    | comment s => cases e

theorem named_put {u : Html} (hu : u.Named N) (q : List Nat) : ∀ {t : Html}, t.Named N → (put u q t).Named N := by
  induction q with
  | nil => intro t _; cases t <;> exact hu
  | cons i q ih =>
    intro t h
    cases t with
    | element tag a cs =>
      refine ⟨h.1, h.2.1, namedL_iff.2 fun c hc => ?_⟩
      obtain ⟨j, hj⟩ := List.mem_iff_getElem?.1 hc
      rw [List.getElem?_modify] at hj
      cases ec : cs[j]? with
      | none => rw [ec] at hj; cases hj
      | some d =>
        rw [ec] at hj
        have hd := namedL_iff.1 h.2.2 d (List.mem_of_getElem? ec)
        have hj := Option.some.inj hj
        split at hj
        · rw [← hj]; exact ih hd
        · rw [← hj]; exact hd
    | document => exact h
    | text s => exact h
    | comment s => exact h

end Html

/-! ### Attributes -/

mutual
theorem made_named {N : QualName → Prop} (content : Str → List Html) : ∀ c : InsertContent, c.Fine N →
    ((Dialect.library content).made c).Named N
  | .element _ _ cs, h => ⟨h.1, h.2.1, madeL_named content cs h.2.2⟩
  | .text _, _ => trivial
  | .comment _, _ => trivial
theorem madeL_named {N : QualName → Prop} (content : Str → List Html) : ∀ cs : List InsertContent, InsertContent.FineL N cs →
    Html.NamedL N ((Dialect.library content).madeL cs)
  | [], _ => trivial
  | c :: cs, h => ⟨made_named content c h.1, madeL_named content cs h.2⟩
end

section attrs

variable {N : QualName → Prop} (hN : PlainNames N)

theorem put_written (same : QualName → Bool) (w : Str → Bool) (hs : ∀ q, N q → same q = w (serName q)) (name : QualName)
    (v : Str) : ∀ {a : Attrs}, (∀ kv ∈ a, N kv.1) →
    (a.put same name v).written = (match a.written.findIdx? (fun kv => w kv.1) with
      | some i => a.written.modify i (fun kv => (kv.1, v))
      | none => a.written ++ [(serName name, v)]) := by
  intro a ha
  have e : a.findIdx? (fun kv => same kv.1) = a.written.findIdx? (fun kv => w kv.1) := by
    unfold Attrs.written
    rw [List.findIdx?_map]
    induction a with
    | nil => rfl
    | cons kv a ih =>
      rw [List.findIdx?_cons, List.findIdx?_cons, hs _ (ha kv (by simp)), ih fun x hx => ha x (by simp [hx])]
      rfl
  unfold Attrs.put
  rw [e]
  cases a.written.findIdx? (fun kv => w kv.1) with
  | none => simp [Attrs.written]
  | some i =>
    simp only [Attrs.written]
    exact Html.map_modify' _ _ (fun kv => (kv.1, v)) (fun _ => rfl) a i

include hN

theorem setAttr_written {name : QualName} (hn : N name) (v : Str) {a a' : Attrs} (ha : ∀ kv ∈ a, N kv.1)
    (hw : a'.written = a.written) (content : Str → List Html) :
    (Dialect.page.setAttr name v a').written = ((Dialect.library content).setAttr name v a).written := by
  have h1 := put_written (N := N) (fun k => decide (k = name)) (fun s => decide (s = serName name)) (fun q hq => by
    rw [decide_eq_decide]; exact ⟨fun e => by rw [e], hN.inj _ _ hq hn⟩) name v ha
  have h2 := put_written (N := fun _ => True) (fun k => decide (k.written = name.shown))
    (fun s => decide (s = serName name)) (fun q _ => by
      rw [written_eq, shown_eq, Wasm.domName_eq (hN.pre _ hn)]) ⟨none, [], name.shown⟩ v (a := a') (fun _ _ => trivial)
  show (Attrs.put (fun k => decide (k.written = name.shown)) ⟨none, [], name.shown⟩ v a').written =
    (Attrs.put (fun k => decide (k = name)) name v a).written
  rw [h1, h2, hw]
  have : serName ⟨none, [], name.shown⟩ = serName name := by
    rw [shown_eq, Wasm.domName_eq (hN.pre _ hn)]; rfl
  rw [this]

theorem keys_put {name : QualName} (hn : N name) (v : Str) {a : Attrs} (ha : ∀ kv ∈ a, N kv.1) (hk : a.keys.Nodup) :
    (∀ kv ∈ a.put (fun k => decide (k = name)) name v, N kv.1) ∧
      (a.put (fun k => decide (k = name)) name v).keys.Nodup := by
  unfold Attrs.put
  cases e : a.findIdx? (fun kv => decide (kv.1 = name)) with
  | none =>
    rw [List.findIdx?_eq_none_iff] at e
    refine ⟨fun kv hkv => ?_, ?_⟩
    · rcases List.mem_append.1 hkv with h | h
      · exact ha kv h
      · rw [List.mem_singleton.1 h]; exact hn
    · simp only [Attrs.keys, List.map_append, List.map_cons, List.map_nil]
      rw [List.nodup_append]
      refine ⟨hk, by simp, fun x hx y hy => ?_⟩
      obtain ⟨kv, hkv, rfl⟩ := List.mem_map.1 hx
      rw [List.mem_singleton.1 hy]
      simpa using e kv hkv
  | some i =>
    have ek : (a.modify i fun kv => (kv.1, v)).map Prod.fst = a.map Prod.fst := by
      have := Html.map_modify' Prod.fst (fun kv : QualName × Str => (kv.1, v)) id (fun _ => rfl) a i
      rw [this, List.modify_id]
    refine ⟨fun kv hkv => ?_, by simpa [Attrs.keys, ek] using hk⟩
    have : kv.1 ∈ a.map Prod.fst := ek ▸ List.mem_map_of_mem hkv
    obtain ⟨kv', h1, h2⟩ := List.mem_map.1 this
    rw [← h2]; exact ha kv' h1

theorem removeAttr_written {name : QualName} (hn : N name) {a a' : Attrs} (ha : ∀ kv ∈ a, N kv.1) (hk : a.keys.Nodup)
    (hw : a'.written = a.written) (content : Str → List Html) :
    (Dialect.page.removeAttr name a').written = ((Dialect.library content).removeAttr name a).written := by
  have h1 : (Dialect.page.removeAttr name a').written = a'.written.eraseP (fun kv => decide (kv.1 = serName name)) := by
    rw [← Wasm.removeAttribute_eq, Wasm.domName_eq (hN.pre _ hn)]
    unfold Wasm.removeAttribute Attrs.written
    rw [List.eraseP_map]; rfl
  rw [h1, hw]
  show _ = Attrs.written (a.filter (fun kv => decide (kv.1 ≠ name)))
  clear h1 hw
  induction a with
  | nil => rfl
  | cons kv a ih =>
    simp only [Attrs.keys, List.map_cons, List.nodup_cons] at hk
    have ih := ih (fun x hx => ha x (by simp [hx])) hk.2
    by_cases e : kv.1 = name
    · have hf : a.filter (fun kv => decide (kv.1 ≠ name)) = a := by
        rw [List.filter_eq_self]
        intro x hx
        simp only [decide_eq_true_eq, ne_eq]
        intro ex
        exact hk.1 (by rw [e, ← ex]; exact List.mem_map_of_mem hx)
      rw [List.filter_cons_of_neg (by simp [e]), hf]
      simp [Attrs.written, e]
    · rw [List.filter_cons_of_pos (by simp [e])]
      have e' : serName kv.1 ≠ serName name := fun h => e (hN.inj _ _ (ha kv (by simp)) hn h)
      simp only [Attrs.written, List.map_cons] at ih ⊢
      rw [List.eraseP_cons_of_neg (by simpa using e'), ih]

theorem create_written {a : Attrs} (ha : ∀ kv ∈ a, N kv.1) (hk : a.keys.Nodup) :
    (Dialect.page.create a).written = a.written := by
  rw [← Wasm.setAttrs_eq]; exact Wasm.setAttrs_written hN ha hk

mutual
theorem made_unq (content : Str → List Html) : ∀ c : InsertContent, c.Fine N →
    (Dialect.page.made c).unq = ((Dialect.library content).made c).unq
  | .element _ _ cs, h => Html.unq_of_element (create_written hN h.1 h.2.1) (madeL_unq content cs h.2.2)
  | .text _, _ => rfl
  | .comment _, _ => rfl
theorem madeL_unq (content : Str → List Html) : ∀ cs : List InsertContent, InsertContent.FineL N cs →
    (Dialect.page.madeL cs).map Html.unq = ((Dialect.library content).madeL cs).map Html.unq
  | [], _ => rfl
  | c :: cs, h => by
    simp only [Dialect.madeL, List.map_cons]
    rw [made_unq content c h.1, madeL_unq content cs h.2]
end

end attrs

/-! ### Stores -/

/-- The trees of the two stores are the same up to the representation of attribute names. -/
structure Store.Sim (N : QualName → Prop) (σ τ : Store) : Prop where
  same : ∀ k, (τ k).map Html.unq = (σ k).map Html.unq
  named : ∀ k t, σ k = some t → t.Named N

namespace Store.Sim

variable {N : QualName → Prop} {σ τ : Store}

theorem find (h : Store.Sim N σ τ) {p : Path} {t : Html} (e : σ.find p = some t) :
    ∃ u, τ.find p = some u ∧ u.unq = t.unq ∧ t.Named N := by
  cases p with
  | nil => cases e
  | cons k q =>
    simp only [Store.find] at e ⊢
    cases e1 : σ k with
    | none => rw [e1] at e; cases e
    | some r =>
      rw [e1] at e
      have e : r.get? q = some t := e
      have hs := h.same k
      rw [e1] at hs
      cases e2 : τ k with
      | none => rw [e2] at hs; cases hs
      | some w =>
        rw [e2] at hs
        have hs : w.unq = r.unq := Option.some.inj hs
        have h1 := Html.unq_get? q w
        rw [hs, Html.unq_get? q r, e] at h1
        cases e3 : w.get? q with
        | none => rw [e3] at h1; cases h1
        | some u =>
          rw [e3] at h1
          exact ⟨u, e3, (Option.some.inj h1).symm, Html.named_get? q (h.named k r e1) e⟩

theorem slot (h : Store.Sim N σ τ) (k : Nat) {t u : Option Html} (e : u.map Html.unq = t.map Html.unq)
    (hn : ∀ x, t = some x → x.Named N) : Store.Sim N (σ.slot k t) (τ.slot k u) := by
  constructor
  · intro i
    simp only [Store.slot]
    split
    · exact e
    · exact h.same i
  · intro i x hx
    simp only [Store.slot] at hx
    split at hx
    · exact hn x hx
    · exact h.named i x hx

theorem write (h : Store.Sim N σ τ) (p : Path) {t u : Html} (e : u.unq = t.unq) (hn : t.Named N) :
    Store.Sim N (σ.write p t) (τ.write p u) := by
  cases p with
  | nil => exact h
  | cons k q =>
    refine h.slot k ?_ ?_
    · have := h.same k
      cases e1 : σ k <;> cases e2 : τ k <;> rw [e1, e2] at this <;> try cases this
      · rfl
      · simp only [Option.map_some, Option.some.injEq] at this ⊢
        rw [Html.unq_put, Html.unq_put, e, this]
    · intro x hx
      cases e1 : σ k with
      | none => rw [e1] at hx; cases hx
      | some r => rw [e1] at hx; cases hx; exact Html.named_put hn q (h.named k r e1)

theorem take (h : Store.Sim N σ τ) {p : Path} {t : Html} {σ' : Store} (e : σ.take p = some (t, σ')) :
    ∃ u τ', τ.take p = some (u, τ') ∧ u.unq = t.unq ∧ t.Named N ∧ Store.Sim N σ' τ' := by
  unfold Store.take at e ⊢
  cases e1 : σ.find p with
  | none => rw [e1] at e; cases e
  | some r =>
    obtain ⟨u, e2, e3, e4⟩ := h.find e1
    rw [e1] at e
    rw [e2]
    simp only at e ⊢
    split at e
    · cases e
    · split at e
      · cases e
      · next hk =>
        cases e
        simp only [if_neg hk]
        exact ⟨_, _, rfl, e3, e4, h.slot _ rfl (fun _ h => by cases h)⟩
    · next h1 h2 =>
      cases e
      refine ⟨u, τ.write p (.text []), ?_, e3, e4, h.write p rfl trivial⟩
      rfl

theorem insert (h : Store.Sim N σ τ) {at_ : Path} {x y : Html} {slot : Option Nat} (hr : σ.Room at_ slot)
    (hx : x.Named N) (hy : y.unq = x.unq) {σ' : Store} (e : Store.insert true σ at_ x slot = some σ') :
    ∃ τ', Store.insert false τ at_ y slot = some τ' ∧ Store.Sim N σ' τ' := by
  unfold Store.insert at e ⊢
  split at e
  · cases e
  · next h0 =>
    rw [if_neg h0]
    split at e
    · next pos tag attrs cs hp hf =>
      obtain ⟨u, e2, e3, e4⟩ := h.find hf
      obtain ⟨a', cs', rfl, ha', hcs'⟩ := Html.unq_element e3
      rw [hp, e2]
      simp only at e ⊢
      have hlen : cs'.length = cs.length := by
        have := congrArg List.length hcs'
        simpa using this
      have hplace : (Store.place false pos y slot.isSome cs').map Html.unq =
          (Store.place true pos x slot.isSome cs).map Html.unq := by
        have hg : ∀ i : Nat, (cs'[i]?).map Html.unq = (cs[i]?).map Html.unq := by
          intro i; rw [← List.getElem?_map, ← List.getElem?_map, hcs']
        unfold Store.place
        have hgp := hg pos
        cases ec : cs[pos]? with
        | none =>
          rw [ec] at hgp
          cases ec' : cs'[pos]? with
          | some _ => rw [ec'] at hgp; cases hgp
          | none => simp [hcs', hlen, hy]
        | some c =>
          rw [ec] at hgp
          cases ec' : cs'[pos]? with
          | none => rw [ec'] at hgp; cases hgp
          | some c' =>
            simp only
            cases slot with
            | none =>
              rcases hr with hr | hr
              · exact absurd rfl hr
              · have := hr pos tag attrs cs hp hf
                rw [List.getElem?_eq_none this] at ec; cases ec
            | some k => simp [List.map_set, hcs', hy]
      have hn : Html.NamedL N (Store.place true pos x slot.isSome cs) := by
        have hcs := Html.namedL_iff.1 e4.2.2
        apply Html.namedL_iff.2
        intro c hc
        unfold Store.place at hc
        split at hc
        · simp only [List.mem_append, List.mem_replicate, List.mem_singleton] at hc
          rcases hc with (hc | ⟨_, rfl⟩) | rfl
          · exact hcs c hc
          · trivial
          · exact hx
        · split at hc
          · simp only [List.mem_append, List.mem_cons] at hc
            rcases hc with hc | rfl | hc
            · exact hcs c (List.mem_of_mem_take hc)
            · exact hx
            · exact hcs c (List.mem_of_mem_drop hc)
          · rcases List.mem_or_eq_of_mem_set hc with hc | rfl
            · exact hcs c hc
            · exact hx
      have hw := h.write at_.dropLast (t := .element tag attrs (Store.place true pos x slot.isSome cs))
        (u := .element tag a' (Store.place false pos y slot.isSome cs')) (Html.unq_of_element ha' hplace)
        ⟨e4.1, e4.2.1, hn⟩
      have hg : (cs'[pos]?).map Html.unq = (cs[pos]?).map Html.unq := by
        rw [← List.getElem?_map, ← List.getElem?_map, hcs']
      cases slot with
      | none => cases e; exact ⟨_, rfl, hw⟩
      | some k =>
        cases ec : cs[pos]? with
        | none =>
          rw [ec] at e hg
          cases ec' : cs'[pos]? with
          | some _ => rw [ec'] at hg; cases hg
          | none => cases e; exact ⟨_, rfl, hw⟩
        | some c =>
          rw [ec] at e hg
          cases ec' : cs'[pos]? with
          | none => rw [ec'] at hg; cases hg
          | some c' =>
            rw [ec'] at hg
            cases e
            refine ⟨_, rfl, hw.slot k hg ?_⟩
            intro z hz
            cases hz
            exact Html.namedL_iff.1 e4.2.2 c (List.mem_of_getElem? ec)
    · cases e

/-- One patch. -/
theorem apply (hN : PlainNames N) (content : Str → List Html) (h : Store.Sim N σ τ) {P : Patch} (hp : P.Neutral N σ)
    {σ' : Store} (e : (Dialect.library content).apply σ P = some σ') :
    ∃ τ', Dialect.page.apply τ P = some τ' ∧ Store.Sim N σ' τ' := by
  cases P with
  | insertElement at_ tag attrs cs slot =>
    obtain ⟨h1, h2, h3, h4⟩ := hp
    exact h.insert h1 (x := .element tag attrs ((Dialect.library content).madeL cs))
      ⟨h2, h3, madeL_named content cs h4⟩
      (Html.unq_of_element (create_written hN h2 h3) (madeL_unq hN content cs h4)) e
  | insertText at_ s slot => exact h.insert hp (x := .text s) trivial rfl e
  | insertComment at_ s slot => exact h.insert hp (x := .comment s) trivial rfl e
  | remove path =>
    simp only [Dialect.apply] at e ⊢
    cases e1 : σ.take path with
    | none => rw [e1] at e; cases e
    | some r =>
      rw [e1] at e
      cases e
      obtain ⟨u, τ', e2, _, _, e3⟩ := h.take e1
      exact ⟨τ', by rw [e2]; rfl, e3⟩
  | move from_ to_ slot =>
    simp only [Dialect.apply] at e ⊢
    cases e1 : σ.take from_ with
    | none => rw [e1] at e; cases e
    | some r =>
      obtain ⟨t, σ1⟩ := r
      rw [e1] at e
      obtain ⟨u, τ1, e2, e3, e4, e5⟩ := h.take e1
      rw [e2]
      exact e5.insert (hp t σ1 e1) e4 e3 e
  | setText path s =>
    simp only [Dialect.apply] at e ⊢
    cases e1 : σ.find path with
    | none => rw [e1] at e; cases e
    | some t =>
      obtain ⟨u, e2, e3, e4⟩ := h.find e1
      rw [e1] at e
      rw [e2]
      cases t with
      | element tag a cs => cases e
      | document => cases e
      | text s0 =>
        cases u <;> simp only [Html.unq] at e3 <;> try cases e3
        cases e; exact ⟨_, rfl, h.write path rfl trivial⟩
      | comment s0 =>
        cases u <;> simp only [Html.unq] at e3 <;> try cases e3
        cases e; exact ⟨_, rfl, h.write path rfl trivial⟩
  | setAttribute path name v =>
    simp only [Dialect.apply] at e ⊢
    cases e1 : σ.find path with
    | none => rw [e1] at e; cases e
    | some t =>
      obtain ⟨u, e2, e3, e4⟩ := h.find e1
      rw [e1] at e
      rw [e2]
      cases t with
      | element tag a cs =>
        obtain ⟨a', cs', rfl, ha', hcs'⟩ := Html.unq_element e3
        cases e
        obtain ⟨k1, k2⟩ := keys_put hN hp v e4.1 e4.2.1
        exact ⟨_, rfl, h.write path (Html.unq_of_element (setAttr_written hN hp v e4.1 ha' content) hcs')
          ⟨k1, k2, e4.2.2⟩⟩
      | document => cases e
      | text s0 => cases e
      | comment s0 => cases e
  | removeAttribute path name =>
    simp only [Dialect.apply] at e ⊢
    cases e1 : σ.find path with
    | none => rw [e1] at e; cases e
    | some t =>
      obtain ⟨u, e2, e3, e4⟩ := h.find e1
      rw [e1] at e
      rw [e2]
      cases t with
      | element tag a cs =>
        obtain ⟨a', cs', rfl, ha', hcs'⟩ := Html.unq_element e3
        cases e
        exact ⟨_, rfl, h.write path (Html.unq_of_element (removeAttr_written hN hp e4.1 e4.2.1 ha' content) hcs')
          ⟨fun kv hkv => e4.1 kv (List.mem_filter.1 hkv).1,
            List.Nodup.sublist (List.Sublist.map _ List.filter_sublist) e4.2.1, e4.2.2⟩⟩
      | document => cases e
      | text s0 => cases e
      | comment s0 => cases e
  | updateProps path changes =>
    obtain ⟨h1, h2, h3⟩ := hp
    simp only [Dialect.apply] at e ⊢
    cases e1 : σ.find path with
    | none => rw [e1] at e; cases e
    | some t =>
      obtain ⟨u, e2, e3, e4⟩ := h.find e1
      rw [e1] at e
      rw [e2]
      cases t with
      | element tag a cs =>
        obtain ⟨a', cs', rfl, ha', hcs'⟩ := Html.unq_element e3
        cases e
        obtain ⟨g1, g2, g3⟩ := Wasm.updateAttrs_written hN e4.1 e4.2.1 ha' h1 h2
        rw [Wasm.updateAttrs_eq] at g1
        have ht := h3 tag a cs e1
        refine ⟨_, rfl, h.write path (Html.unq_of_element g1 ?_) ⟨g2, g3, e4.2.2⟩⟩
        rw [ht]; exact hcs'
      | document => cases e
      | text s0 =>
        cases u <;> simp only [Html.unq] at e3 <;> try cases e3
        cases e; exact ⟨_, rfl, h.write path rfl trivial⟩
      | comment s0 =>
        cases u <;> simp only [Html.unq] at e3 <;> try cases e3
        cases e; exact ⟨_, rfl, h.write path rfl trivial⟩
  | opaqueChanged path s => exact absurd hp id

theorem run (hN : PlainNames N) (content : Str → List Html) {ps : List Patch} : ∀ {σ τ σ' : Store},
    Store.Sim N σ τ → (Dialect.library content).Neutral N σ ps → (Dialect.library content).run σ ps = some σ' →
    ∃ τ', Dialect.page.run τ ps = some τ' ∧ Store.Sim N σ' τ' := by
  induction ps with
  | nil => intro σ τ σ' h _ e; cases e; exact ⟨τ, rfl, h⟩
  | cons P ps ih =>
    intro σ τ σ' h hn e
    simp only [Dialect.run] at e ⊢
    cases e1 : (Dialect.library content).apply σ P with
    | none => rw [e1] at e; cases e
    | some σ1 =>
      rw [e1] at e
      obtain ⟨τ1, e2, h1⟩ := h.apply hN content hn.1 e1
      rw [e2]
      exact ih h1 (hn.2 σ1 e1) e

end Store.Sim


/-- **C60**, partial: the library and the page agree on every list of neutral patches, whoever made it. Take a
document and a page that show the same body. If the list can be carried out (`Dialect.run`) and every patch is
neutral when its turn comes, then both appliers succeed, and afterwards they show the same body again.

Missing from the full statement: patches that are not neutral. For each kind of them there is a case in which the
library and the page differ (`C60_violated_room`, `C60_violated_text`, `C60_violated_report`,
`C60_violated_names`). -/
theorem C60_appliers_agree_partial (dom : WebDom) (parse : Str → Document) {N : QualName → Prop} (hN : PlainNames N)
    {D : Document} {b : Nat} (hw : D.arena.WF) (hb : D.body = some b) (hp : ∀ s, (parse s).arena.Sound)
    {E : Arena NodeData} {eb : Nat} (hE : E.WF) (hl : E.Lower) (heb : eb < E.next)
    (hsame : (E.tree eb).unq = (D.arena.tree b).unq) (hnames : (D.arena.tree b).Named N) {ps : List Patch}
    (hk : ∀ P ∈ ps, dom.Keeps P) {σ : Store}
    (hr : (Dialect.library (parsedContent parse)).run (Store.init (D.arena.tree b)) ps = some σ)
    (hn : (Dialect.library (parsedContent parse)).Neutral N (Store.init (D.arena.tree b)) ps) :
    ∃ D' E', applyPatches parse D ps = .ok D' ∧ dom.applyPatches eb E ps = .ok E' ∧
      (E'.tree eb).unq = (D'.arena.tree b).unq ∧ (E'.tree eb).inner = (D'.arena.tree b).inner ∧
      D'.body = some b ∧ σ 0 = some (D'.arena.tree b) := by
  have h0 : Store.Sim N (Store.init (D.arena.tree b)) (Store.init (E.tree eb)) := by
    constructor
    · intro k
      simp only [Store.init]
      split
      · simp [hsame]
      · rfl
    · intro k t e
      simp only [Store.init] at e
      split at e
      · cases e; exact hnames
      · cases e
  obtain ⟨τ, e1, e2⟩ := h0.run hN _ hn hr
  obtain ⟨D', d1, d2, d3, _⟩ := C46_patches_rewrite_the_tree parse hw hb hp hr
  obtain ⟨E', f1, f2, _⟩ := C47_patches_rewrite_the_page dom hE hl heb hk e1
  have hs : (E'.tree eb).unq = (D'.arena.tree b).unq := by
    have := e2.same 0
    rw [f2, d3] at this
    exact Option.some.inj this
  refine ⟨D', E', d1, f1, hs, ?_, d2, d3⟩
  rw [← Html.inner_unq, hs, Html.inner_unq]

/-! ### Where they differ -/

/-- **C60** is violated when a node is put at a taken place without a slot: the library moves the following nodes
up, on the page the node that is there is lost. -/
theorem C60_violated_room : ∃ (cs : List Html) (P : Patch) (D : Document) (E : Arena NodeData),
    Html.plainL cs = true ∧ applyPatches (fun _ => Document.new) (.ofForest cs) [P] = .ok D ∧
    WebDom.lenient.applyPatches 2 (Document.ofForest cs).arena [P] = .ok E ∧
    (D.arena.tree 2).inner = "x<p></p>".toList ∧ (E.tree 2).inner = "x".toList :=
  ⟨[ex "p" [] []], .insertText [0, 0] "x".toList none, _, _, by decide +kernel, rfl, rfl, by decide +kernel,
    by decide +kernel⟩

/-- **C60** is violated when an element gets a text: the library ignores it, on the page it replaces the content. -/
theorem C60_violated_text : ∃ (cs : List Html) (P : Patch) (D : Document) (E : Arena NodeData),
    Html.plainL cs = true ∧ applyPatches (fun _ => Document.new) (.ofForest cs) [P] = .ok D ∧
    WebDom.lenient.applyPatches 2 (Document.ofForest cs).arena [P] = .ok E ∧
    (D.arena.tree 2).inner = "<p><b></b></p>".toList ∧ (E.tree 2).inner = "<p>x</p>".toList :=
  ⟨[ex "p" [] [ex "b" [] []]], .updateProps [0, 0] [⟨.text, some "x".toList⟩], _, _, by decide +kernel, rfl, rfl,
    by decide +kernel, by decide +kernel⟩

/-- **C60** is violated by a report about an opaque element: the library replaces its content, the page dispatches
an event and leaves the content alone. -/
theorem C60_violated_report : ∃ (cs : List Html) (P : Patch) (D : Document) (E : Arena NodeData),
    applyPatches (fun _ => .ofForest [ex "div" [] [.text "new".toList]]) (.ofForest cs) [P] = .ok D ∧
    WebDom.lenient.applyPatches 2 (Document.ofForest cs).arena [P] = .ok E ∧
    (D.arena.tree 2).inner = "<x-map data-hotmeal-opaque=\"\">new</x-map>".toList ∧
    (E.tree 2).inner = "<x-map data-hotmeal-opaque=\"\">old</x-map>".toList :=
  ⟨[ex "x-map" [("data-hotmeal-opaque", "")] [.text "old".toList]], .opaqueChanged [0, 0] "new".toList, _, _, rfl,
    rfl, by decide +kernel, by decide +kernel⟩

/-- **C60** is violated by names that are written alike: an attribute `x:a` without a prefix and an attribute `a`
with the prefix `x` are two attributes for the library and one for the page. -/
theorem C60_violated_names : ∃ (cs : List Html) (P : Patch) (D : Document) (E : Arena NodeData),
    Html.plainL cs = true ∧ applyPatches (fun _ => Document.new) (.ofForest cs) [P] = .ok D ∧
    WebDom.lenient.applyPatches 2 (Document.ofForest cs).arena [P] = .ok E ∧
    (D.arena.tree 2).inner = "<p x:a=\"1\" x:a=\"2\"></p>".toList ∧ (E.tree 2).inner = "<p x:a=\"2\"></p>".toList :=
  ⟨[ex "p" [("x:a", "1")] []], .setAttribute [0, 0] ⟨some "x".toList, [], "a".toList⟩ "2".toList, _, _,
    by decide +kernel, rfl, rfl, by decide +kernel, by decide +kernel⟩

/-! ### A case that meets the hypotheses -/

section check

variable (N : QualName → Prop) [DecidablePred N]

/-- `Store.Room`, computed. -/
def Store.roomB (σ : Store) (at_ : Path) (slot : Option Nat) : Bool :=
  slot.isSome || match at_.getLast?, σ.find at_.dropLast with
    | some pos, some (.element _ _ cs) => decide (cs.length ≤ pos)
    | _, _ => true

theorem Store.room_of {σ : Store} {at_ : Path} {slot : Option Nat} (h : σ.roomB at_ slot = true) :
    σ.Room at_ slot := by
  cases slot with
  | some k => exact .inl (by simp)
  | none =>
    refine .inr fun pos tag attrs cs h1 h2 => ?_
    simpa [Store.roomB, h1, h2] using h

mutual
/-- `InsertContent.Fine`, computed. -/
def InsertContent.fineB : InsertContent → Bool
  | .element _ a cs => a.all (fun kv => decide (N kv.1)) && decide a.keys.Nodup && fineLB cs
  | .text _ => true
  | .comment _ => true
/-- The same for a list. -/
def InsertContent.fineLB : List InsertContent → Bool
  | [] => true
  | c :: cs => c.fineB && fineLB cs
end

mutual
theorem InsertContent.fine_ofB : ∀ {c : InsertContent}, c.fineB N = true → c.Fine N
  | .element _ _ cs, h => by
    simp only [InsertContent.fineB, Bool.and_eq_true, List.all_eq_true, decide_eq_true_eq] at h
    exact ⟨h.1.1, h.1.2, InsertContent.fineL_ofB h.2⟩
  | .text _, _ => trivial
  | .comment _, _ => trivial
theorem InsertContent.fineL_ofB : ∀ {cs : List InsertContent}, InsertContent.fineLB N cs = true →
    InsertContent.FineL N cs
  | [], _ => trivial
  | c :: cs, h => by
    simp only [InsertContent.fineLB, Bool.and_eq_true] at h
    exact ⟨InsertContent.fine_ofB h.1, InsertContent.fineL_ofB h.2⟩
end

/-- `Patch.Neutral`, computed. -/
def Patch.neutralB (σ : Store) : Patch → Bool
  | .insertElement at_ _ attrs cs slot => σ.roomB at_ slot && attrs.all (fun kv => decide (N kv.1)) &&
    decide attrs.keys.Nodup && InsertContent.fineLB N cs
  | .insertText at_ _ slot => σ.roomB at_ slot
  | .insertComment at_ _ slot => σ.roomB at_ slot
  | .remove _ => true
  | .move from_ to_ slot => match σ.take from_ with
    | some (_, σ') => σ'.roomB to_ slot
    | none => true
  | .setText _ _ => true
  | .setAttribute _ name _ => decide (N name)
  | .removeAttribute _ name => decide (N name)
  | .updateProps path changes => decide (changes.map PropChange.name).Nodup &&
    changes.all (fun c => match c.name with
      | .attr q => decide (N q)
      | .text => true) &&
    match σ.find path with
    | some (.element _ _ _) => (textChange changes).isNone
    | _ => true
  | .opaqueChanged _ _ => false

theorem Patch.neutral_of {σ : Store} {P : Patch} (h : P.neutralB N σ = true) : P.Neutral N σ := by
  cases P with
  | insertElement at_ tag attrs cs slot =>
    simp only [Patch.neutralB, Bool.and_eq_true, List.all_eq_true, decide_eq_true_eq] at h
    exact ⟨Store.room_of h.1.1.1, h.1.1.2, h.1.2, InsertContent.fineL_ofB N h.2⟩
  | insertText at_ s slot => exact Store.room_of h
  | insertComment at_ s slot => exact Store.room_of h
  | remove path => trivial
  | move from_ to_ slot =>
    intro t σ' e
    simp only [Patch.neutralB, e] at h
    exact Store.room_of h
  | setText path s => trivial
  | setAttribute path name v => exact of_decide_eq_true (p := N name) h
  | removeAttribute path name => exact of_decide_eq_true (p := N name) h
  | updateProps path changes =>
    simp only [Patch.neutralB, Bool.and_eq_true, List.all_eq_true, decide_eq_true_eq] at h
    refine ⟨h.1.1, fun c hc q e => ?_, fun tag attrs cs e => ?_⟩
    · have := h.1.2 c hc
      rw [e] at this
      exact of_decide_eq_true this
    · have := h.2
      rw [e] at this
      simpa using this
  | opaqueChanged path s => cases h

/-- `Dialect.Neutral`, computed. -/
def Dialect.neutralB (d : Dialect) : Store → List Patch → Bool
  | _, [] => true
  | σ, P :: ps => P.neutralB N σ && match d.apply σ P with
    | some σ' => d.neutralB σ' ps
    | none => true

theorem Dialect.neutral_of (d : Dialect) {ps : List Patch} : ∀ {σ : Store}, d.neutralB N σ ps = true →
    d.Neutral N σ ps := by
  induction ps with
  | nil => intro _ _; trivial
  | cons P ps ih =>
    intro σ h
    simp only [Dialect.neutralB, Bool.and_eq_true] at h
    refine ⟨Patch.neutral_of N h.1, fun σ' e => ih ?_⟩
    have := h.2
    rwa [e] at this

end check

/-- The patches of `exPatches`, which use every kind of patch but reports, can be carried out and are neutral. -/
example : PlainNames bareName ∧ (Document.ofForest exBefore).arena.WF ∧ (Document.ofForest exBefore).body = some 2 ∧
    (Document.ofForest exBefore).arena.Lower ∧ 2 < (Document.ofForest exBefore).arena.next ∧
    ((Document.ofForest exBefore).arena.tree 2).Named bareName ∧ (∀ P ∈ exPatches, WebDom.lenient.Keeps P) ∧
    (∃ σ, (Dialect.library (parsedContent fun _ => Document.new)).run
      (Store.init ((Document.ofForest exBefore).arena.tree 2)) exPatches = some σ) ∧
    (Dialect.library (parsedContent fun _ => Document.new)).Neutral bareName
      (Store.init ((Document.ofForest exBefore).arena.tree 2)) exPatches := by
  refine ⟨plainNames_bare, (ofForest_valid _ (by decide +kernel)).wf, by decide +kernel,
    lower_ofForest (by decide +kernel), by decide +kernel, ?_, ?_, ⟨_, rfl⟩,
    Dialect.neutral_of bareName _ (by decide +kernel)⟩
  · rw [show (Document.ofForest exBefore).arena.tree 2 = .element "body".toList [] exBefore from rfl]
    simp [exBefore, ex, Html.Named, Html.NamedL, bareName, Attrs.keys]
  · simp [exPatches, WebDom.Keeps, Patch.All, InsertContent.AllL, InsertContent.All, WebDom.KeepsTag,
      WebDom.KeepsName, WebDom.lenient]
    decide

end Hotmeal
