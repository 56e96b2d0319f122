import Verif.Model.BodyHtml
import Verif.Lemmas.RewriteNative
import Verif.Lemmas.Mount
import Verif.Lemmas.ReadPlain
import Verif.Spec.Sound

set_option autoImplicit false
set_option linter.unusedSectionVars false

/-! Lemmas about `innerHTML`, for `Verif/Props/BodyHtml.lean`. -/

namespace Hotmeal
namespace BodyHtml

open Mount

variable {P : NodeData → Prop}

/-- A sound arena whose nodes all have a property. -/
structure Tidy (P : NodeData → Prop) (A : Arena NodeData) : Prop where
  sound : A.Sound
  all : ∀ n, P (A.data n)

/-- A builder keeps arenas tidy. -/
def Makes (P : NodeData → Prop) (r : Arena NodeData → Res (Arena NodeData × Nat)) : Prop :=
  ∀ A, Tidy P A → ∀ A' n, r A = .ok (A', n) → Tidy P A' ∧ n < A'.next ∧ (A'.data n).kind ≠ .document ∧
    A.next ≤ A'.next ∧ ∀ i, i < A.next → A'.data i = A.data i

theorem container_of_data {A A' : Arena NodeData} {n : Nat} (h : A.Container n) (e : A'.data n = A.data n) :
    A'.Container n := by
  unfold Arena.Container at h ⊢
  rw [e]; exact h

theorem appendMade {m : Nat} : ∀ (rs : List (Arena NodeData → Res (Arena NodeData × Nat))), (∀ r ∈ rs, Makes P r) →
    ∀ A, Tidy P A → m < A.next → (rs ≠ [] → A.Container m) → ∀ A',
    rs.foldlM (fun A r => do
      let (A, c) ← r A
      A.append m c) A = Except.ok (ε := Err) A' →
    Tidy P A' ∧ A.next ≤ A'.next ∧ ∀ i, i < A.next → A'.data i = A.data i
  | [], _, A, h, _, _, A', e => by cases e; exact ⟨h, Nat.le_refl _, fun _ _ => rfl⟩
  | r :: rs, hr, A, h, hm, hc, A', e => by
    rw [List.foldlM_cons] at e
    obtain ⟨A2, h1, e⟩ := res_bind e
    obtain ⟨⟨A3, c⟩, h2, h1⟩ := res_bind h1
    obtain ⟨h3, h4, h5, h6, h7⟩ := hr r (by simp) A h A3 c h2
    have hc3 : A3.Container m := container_of_data (hc (by simp)) (h7 m hm)
    have h8 : A3.append m c = .ok A2 := h1
    obtain ⟨d1, d2⟩ := Arena.append_data h8
    have t2 : Tidy P A2 := ⟨h3.sound.append (by omega) h4 hc3 h5 h8, fun n => by rw [d1]; exact h3.all n⟩
    obtain ⟨g1, g2, g3⟩ := appendMade rs (fun r h => hr r (by simp [h])) A2 t2 (by omega)
      (fun _ => container_of_data hc3 (by rw [d1])) A' e
    exact ⟨g1, by omega, fun i hi => by rw [g3 i (by omega), d1, h7 i hi]⟩

theorem makes_clone {src : Arena NodeData} (hs : Tidy P src) (n : Nat) (hn : (src.data n).kind ≠ .document) :
    Makes P (cloneSubtree src n) := by
  unfold cloneSubtree Arena.fold
  generalize src.next = k
  have step : ∀ (n : Nat), (src.data n).kind ≠ .document → ∀ (rs : List (Arena NodeData → Res (Arena NodeData × Nat))),
      (rs ≠ [] → src.children n ≠ []) → (∀ r ∈ rs, Makes P r) → Makes P (fun A =>
        let (A, m) := A.newNode (src.data n)
        do
          let A ← rs.foldlM (fun A r => do
            let (A, c) ← r A
            A.append m c) A
          .ok (A, m)) := by
    intro n hn rs hne hrs A h A' m e
    obtain ⟨A2, h3, e⟩ := res_bind e
    cases e
    have hd : (A.newNode (src.data n)).1.data A.next = src.data n := by rw [Arena.newNode_data, if_pos rfl]
    have ht : Tidy P (A.newNode (src.data n)).1 :=
      ⟨h.sound.newNode _ fun tag as e => hs.sound.uniq n tag as e, fun i => by
        rw [Arena.newNode_data]
        split
        · exact hs.all n
        · exact h.all i⟩
    obtain ⟨h4, h5, h6⟩ := appendMade rs hrs _ ht (by simp [Arena.newNode]) (fun he => by
      show Arena.Container _ A.next
      unfold Arena.Container
      rw [hd]
      cases hk : (src.data n).kind with
      | document => exact absurd hk hn
      | element tag as => exact .inr ⟨tag, as, rfl⟩
      | text s => exact absurd (hs.sound.leaf n (.inl ⟨s, hk⟩)) (hne he)
      | comment s => exact absurd (hs.sound.leaf n (.inr ⟨s, hk⟩)) (hne he)) A' h3
    have h7 : A.next + 1 ≤ A'.next := h5
    refine ⟨h4, by show A.next < A'.next; omega, ?_, by omega, fun i hi => ?_⟩
    · show (A'.data A.next).kind ≠ _
      rw [h6 A.next (by simp), hd]
      exact hn
    · rw [h6 i (by simp; omega), Arena.newNode_data, if_neg (by omega)]
  induction k generalizing n with
  | zero => exact step n hn [] (by simp) (by simp)
  | succ k ih =>
    refine step n hn _ (by simp) fun r hr => ?_
    obtain ⟨c, hc, rfl⟩ := List.mem_map.1 hr
    exact ih c (hs.sound.nodoc c n ((hs.sound.wf.mem_iff _ _).1 hc))

theorem Tidy.detachAll {A : Arena NodeData} (h : Tidy P A) (ns : List Nat) : Tidy P (detachAll A ns) := by
  refine ⟨?_, fun n => by rw [detachAll_data]; exact h.all n⟩
  unfold Hotmeal.detachAll
  have := h.sound
  clear h
  induction ns generalizing A with
  | nil => exact this
  | cons n ns ih => rw [List.foldl_cons]; exact ih (this.detach n)

/-- What is true of a page after `innerHTML` of the element `b` was set. -/
structure Filled (P : NodeData → Prop) (E E' : Arena NodeData) (b : Nat) (ts : List Html) : Prop where
  tidy : Tidy P E'
  le : E.next ≤ E'.next
  forest : E'.forest b = ts
  data : ∀ n, n < E.next → E'.data n = E.data n
  children : ∀ n, n < E.next → n ≠ b → E'.children n = E.children n
  parent : ∀ n, n < E.next → n ∉ E.children b → E'.parent n = E.parent n
  removed : ∀ n ∈ E.children b, E'.parent n = none

theorem setInnerHtml_fills {frag : Str → Document} {E : Arena NodeData} (hE : Tidy P E) {b : Nat} (hb : b < E.next)
    {tag : Str} {as : Attrs} (hk : (E.data b).kind = .element tag as) {html : Str}
    (hw : Tidy P (frag html).arena) :
    ∃ E', setInnerHtml frag E b html = .ok E' ∧ Filled P E E' b ((frag html).arena.forest (frag html).root) := by
  have w1 := detachAll_wf hE.sound.wf (E.children b)
  have n1 := detachAll_next E (E.children b)
  have d1 := detachAll_data E (E.children b)
  have c1 := detachAll_kids hE.sound.wf b
  obtain ⟨E', ids, e, hg, hki, ht, hge⟩ := appendAll_builds
    (((frag html).arena.children (frag html).root).map (cloneSubtree (frag html).arena))
    (((frag html).arena.children (frag html).root).map (frag html).arena.tree)
    (detachAll E (E.children b)) b w1 (by rw [n1]; exact hb) (by simp) (by
      intro i r t hr ht
      rw [List.getElem?_map] at hr ht
      cases ec : ((frag html).arena.children (frag html).root)[i]? with
      | none => rw [ec] at hr; cases hr
      | some c =>
        rw [ec] at hr ht
        cases hr; cases ht
        exact cloneSubtree_builds hw.sound.wf c)
  rw [c1, if_pos rfl, List.nil_append] at hki
  obtain ⟨t1, t2, t3⟩ := appendMade (P := P) _ (by
    intro r hr
    obtain ⟨c, hc, rfl⟩ := List.mem_map.1 hr
    exact makes_clone hw c (hw.sound.nodoc c _ ((hw.sound.wf.mem_iff _ _).1 hc))) _ (hE.detachAll _)
    (by rw [n1]; exact hb) (fun _ => .inr ⟨tag, as, by rw [d1]; exact hk⟩) E' e
  rw [n1] at t2 t3
  have hpar : ∀ n p, (detachAll E (E.children b)).parent n = some p ↔ p ≠ b ∧ E.parent n = some p := by
    intro n p
    rw [← w1.mem_iff, c1]
    split
    · next e => subst e; simp
    · next e => rw [hE.sound.wf.mem_iff]; exact ⟨fun h => ⟨e, h⟩, fun h => h.2⟩
  refine ⟨E', e, t1, t2, ?_, fun n hn => by rw [t3 n hn, d1],
    fun n hn hne => by rw [hg.children n (by rw [n1]; exact hn) hne, c1, if_neg hne], ?_, ?_⟩
  · unfold Arena.forest
    rw [hki, ht]
  · intro n hn hnb
    rw [hg.parent n (by rw [n1]; exact hn)]
    cases ep : E.parent n with
    | none =>
      cases eq : (detachAll E (E.children b)).parent n with
      | none => rfl
      | some p => have := ((hpar n p).1 eq).2; rw [ep] at this; cases this
    | some p =>
      refine (hpar n p).2 ⟨?_, ep⟩
      rintro rfl
      exact hnb ((hE.sound.wf.mem_iff _ _).2 ep)
  · intro n hn
    have hp := (hE.sound.wf.mem_iff _ _).1 hn
    rw [hg.parent n (by rw [n1]; exact (hE.sound.wf.lt_of_parent _ _ hp).1)]
    cases eq : (detachAll E (E.children b)).parent n with
    | none => rfl
    | some p =>
      obtain ⟨h1, h2⟩ := (hpar n p).1 eq
      rw [hp] at h2; cases h2; exact absurd rfl h1

theorem Filled.samePlace {E E' : Arena NodeData} {b : Nat} {ts : List Html} (h : Filled P E E' b ts) (hE : E.WF)
    (hb : b < E.next) : SamePlace E E' b := by
  refine ⟨fun n hn ha => ⟨h.parent n hn fun hm => ha (.step ((hE.mem_iff _ _).1 hm) .refl),
    h.children n hn (by rintro rfl; exact ha .refl), h.data n hn⟩, h.parent b hb fun hm => ?_, ?_⟩
  · exact hE.self_parent_ne ((hE.mem_iff _ _).1 hm) rfl
  · unfold tagOf; rw [h.data b hb]

end BodyHtml

namespace Reader

theorem fragment_plainly {text : Str} {evs : List Ev} (h : fragment text = some evs) :
    ∀ tag as, .open_ tag as ∈ evs → as.Simple := by
  unfold fragment at h
  split at h
  · next s e =>
    split at h <;> cases h
    exact (Plainly.run (s := ⟨.data, _, _, false, []⟩) ⟨by simp, trivial⟩ e).out
  · cases h

end Reader
end Hotmeal
