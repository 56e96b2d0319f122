import Verif.Lemmas.FanRun

set_option autoImplicit false
set_option linter.unusedSectionVars false

/-!
# Generated patches keep documents sound
-/

namespace Hotmeal

mutual
/-- No element of the content has two attributes of the same name. -/
def InsertContent.Uniq : InsertContent → Prop
  | .element _ attrs cs => attrs.Unique ∧ InsertContent.UniqL cs
  | .text _ => True
  | .comment _ => True
def InsertContent.UniqL : List InsertContent → Prop
  | [] => True
  | c :: cs => c.Uniq ∧ InsertContent.UniqL cs
end

mutual
theorem CopyOf.uniq {D : Arena NodeData} (hD : D.Sound) : ∀ {c : InsertContent} {n : Nat},
    CopyOf D c n → c.Uniq
  | _, _, .text _ => trivial
  | _, _, .comment _ => trivial
  | _, n, .element e h => ⟨hD.uniq n _ _ e, h.uniq hD⟩
theorem CopiesOf.uniq {D : Arena NodeData} (hD : D.Sound) : ∀ {cs : List InsertContent} {ns : List Nat},
    CopiesOf D cs ns → InsertContent.UniqL cs
  | _, _, .nil => trivial
  | _, _, .skip h => h.uniq hD
  | _, _, .keep h hs => ⟨h.uniq hD, hs.uniq hD⟩
end

/-- What an insert patch brings has no element with two attributes of the same name. -/
def Patch.UniqContent : Patch → Prop
  | .insertElement _ tag attrs cs _ => (InsertContent.element tag attrs cs).Uniq
  | _ => True

theorem Patch.From.uniqContent {D : Arena NodeData} {b : Nat} (hD : D.Sound) {P : Patch}
    (hf : P.From D b) : P.UniqContent := by
  cases P with
  | insertElement at_ tag attrs cs slot => obtain ⟨n, _, hc⟩ := hf; exact hc.uniq hD
  | _ => trivial

theorem rebuildAttrs_unique (a : Attrs) {changes : List PropChange}
    (hn : (changes.map PropChange.name).Nodup) : (rebuildAttrs a changes).Unique := by
  unfold Attrs.Unique rebuildAttrs
  rw [List.Nodup, List.pairwise_map, List.pairwise_filterMap]
  rw [List.Nodup, List.pairwise_map] at hn
  refine hn.imp ?_
  intro c c' hne x hx y hy
  split at hx
  · cases hx
  · next q eq =>
    split at hy
    · cases hy
    · next q' eq' =>
      cases hx; cases hy
      simp only
      rintro rfl
      exact hne (by rw [eq, eq'])

namespace SoundRun

/-- Nodes are only added, and those that were there keep their data. -/
def Grows (A A' : Arena NodeData) : Prop :=
  A.next ≤ A'.next ∧ ∀ m, m < A.next → A'.data m = A.data m

theorem Grows.trans {A B C : Arena NodeData} (h : Grows A B) (h' : Grows B C) : Grows A C :=
  ⟨Nat.le_trans h.1 h'.1, fun m hm => by rw [h'.2 m (Nat.lt_of_lt_of_le hm h.1), h.2 m hm]⟩

theorem Grows.newNode (A : Arena NodeData) (d : NodeData) : Grows A (A.newNode d).1 :=
  ⟨by simp, fun m hm => by rw [Arena.newNode_data, if_neg (by omega)]⟩

mutual
theorem create : ∀ (c : InsertContent) {A : Arena NodeData}, A.Sound → c.Uniq →
    ∀ {A' : Arena NodeData} {n : Nat}, createInsertContent A c = .ok (A', n) →
    A'.Sound ∧ Grows A A' ∧ n < A'.next ∧ (A'.data n).kind ≠ .document
  | .element tag attrs cs, A, h, hu, A', n, e => by
    unfold createInsertContent at e
    obtain ⟨A2, h3, e⟩ := res_bind e
    cases e
    have hn := h.newNode ⟨.element tag attrs, .html⟩ (by intro t a e; cases e; exact hu.1)
    have hd : (A.newNode ⟨.element tag attrs, .html⟩).1.data A.next = ⟨.element tag attrs, .html⟩ := by
      rw [Arena.newNode_data, if_pos rfl]
    obtain ⟨h4, h5⟩ := contents cs hn hu.2 (p := A.next) (by simp) (.inr ⟨tag, attrs, by rw [hd]⟩) h3
    have h6 := h5.1
    simp only [Arena.newNode_next] at h6
    refine ⟨h4, (Grows.newNode A _).trans h5, ?_, ?_⟩
    · show A.next < _; omega
    · show (A'.data A.next).kind ≠ _
      rw [h5.2 _ (by simp), hd]; intro e; cases e
  | .text t, A, h, _, A', n, e => by
    unfold createInsertContent at e
    cases e
    refine ⟨h.newNode _ (by intro t a e; cases e), Grows.newNode A _, by simp, ?_⟩
    simp [Arena.newNode_data]
  | .comment t, A, h, _, A', n, e => by
    unfold createInsertContent at e
    cases e
    refine ⟨h.newNode _ (by intro t a e; cases e), Grows.newNode A _, by simp, ?_⟩
    simp [Arena.newNode_data]
theorem contents : ∀ (cs : List InsertContent) {A : Arena NodeData}, A.Sound → InsertContent.UniqL cs →
    ∀ {p : Nat}, p < A.next → A.Container p → ∀ {A' : Arena NodeData},
    appendInsertContents A p cs = .ok A' → A'.Sound ∧ Grows A A'
  | [], A, h, _, p, _, _, A', e => by
    unfold appendInsertContents at e
    cases e; exact ⟨h, Nat.le_refl _, fun _ _ => rfl⟩
  | c :: cs, A, h, hu, p, hp, hc, A', e => by
    unfold appendInsertContents at e
    obtain ⟨⟨A2, m⟩, h1, e⟩ := res_bind e
    obtain ⟨A3, h2, e⟩ := res_bind e
    obtain ⟨h3, h4, h5, h6⟩ := create c h hu.1 h1
    have hp2 : p < A2.next := Nat.lt_of_lt_of_le hp h4.1
    have hc2 : A2.Container p := by unfold Arena.Container; rw [h4.2 p hp]; exact hc
    obtain ⟨d3, n3⟩ := Arena.append_data h2
    have h7 := h3.append hp2 h5 hc2 h6 h2
    obtain ⟨g1, g2⟩ := contents cs h7 hu.2 (p := p) (by rw [n3]; exact hp2)
      (by unfold Arena.Container; rw [d3]; exact hc2) e
    exact ⟨g1, h4.trans (Grows.trans ⟨by rw [n3]; exact Nat.le_refl _, fun m _ => by rw [d3]⟩ g2)⟩
end

theorem put {D D' : Arena NodeData} {x p pos occ : Nat} (h : D.Sound) (hd : DPut D D' x p pos occ)
    (hp : (D.data p).kind.IsElement) (hx : (D.data x).kind ≠ .document) : D'.Sound := by
  obtain ⟨tag, attrs, hp⟩ := hp
  refine ⟨hd.wf, fun n hn => ?_, fun n t a e => h.uniq n t a (by rw [← hd.data]; exact e), fun n q hq => ?_⟩
  · rw [hd.data] at hn
    rw [hd.children, if_neg ?_]
    · exact h.leaf n hn
    · rintro rfl
      rw [hp] at hn
      rcases hn with ⟨s, e⟩ | ⟨s, e⟩ <;> cases e
  · rw [hd.data]
    have hm := (hd.wf.mem_iff n q).2 hq
    rw [hd.children] at hm
    split at hm
    · rcases List.mem_or_eq_of_mem_set hm with hm | rfl
      · exact h.nodoc n p ((h.wf.mem_iff n p).1 hm)
      · exact hx
    · exact h.nodoc n q ((h.wf.mem_iff n q).1 hm)

theorem app {D D' : Arena NodeData} {x p pos : Nat} (h : D.Sound) (hd : DApp D D' x p pos)
    (hp : (D.data p).kind.IsElement) (hpl : p < D.next) (hx : (D.data x).kind ≠ .document) : D'.Sound := by
  obtain ⟨tag, attrs, hp⟩ := hp
  have hnd : ∀ n, (D.data n).kind ≠ .document → (D'.data n).kind ≠ .document := by
    intro n hn
    rw [hd.data]
    split
    · intro e; cases e
    · exact hn
  refine ⟨hd.wf, fun n hn => ?_, fun n t a e => ?_, fun n q hq => ?_⟩
  · by_cases e : n = p
    · subst e
      rw [hd.data, if_neg (by omega), hp] at hn
      rcases hn with ⟨s, e⟩ | ⟨s, e⟩ <;> cases e
    · rw [hd.children_ne n e]
      by_cases hl : n < D.next
      · rw [hd.data, if_neg (by omega)] at hn
        exact h.leaf n hn
      · exact h.wf.children_ge (by omega)
  · rw [hd.data] at e
    split at e
    · cases e
    · exact h.uniq n t a e
  · have hm := (hd.wf.mem_iff n q).2 hq
    by_cases e : q = p
    · subst e
      obtain ⟨rest, hs, hc⟩ := hd.children
      rw [hc] at hm
      simp only [List.mem_append, List.mem_cons, List.mem_range'] at hm
      rcases hm with (hm | ⟨i, hi, rfl⟩) | rfl | hm
      · exact hnd n (h.nodoc n q ((h.wf.mem_iff n q).1 (List.mem_of_mem_take hm)))
      · rw [hd.data, if_pos (by rw [hd.next]; omega)]
        intro e; cases e
      · exact hnd n hx
      · exact hnd n (h.nodoc n q ((h.wf.mem_iff n q).1 (List.mem_of_mem_drop (hs.mem hm))))
    · rw [hd.children_ne q e] at hm
      exact hnd n (h.nodoc n q ((h.wf.mem_iff n q).1 hm))

theorem replaced {D D' : Arena NodeData} {n p : Nat} (h : D.Sound)
    (hr : D.Replaced D' n p Document.emptyText) (hp : D.parent n = some p) : D'.Sound := by
  have hpl := h.wf.lt_of_parent _ _ hp
  refine ⟨hr.wf, fun m hm => ?_, fun m t a e => ?_, fun m q hq => ?_⟩
  · rw [hr.children]
    by_cases e : m = p
    · subst e
      rw [hr.data, if_neg (by omega)] at hm
      have := (h.wf.mem_iff n m).2 hp
      rw [h.leaf m hm] at this; cases this
    · rw [if_neg e]
      rw [hr.data] at hm
      split at hm
      · exact h.wf.children_ge (by omega)
      · exact h.leaf m hm
  · rw [hr.data] at e
    split at e
    · cases e
    · exact h.uniq m t a e
  · rw [hr.data]
    split
    · intro e; cases e
    · next hne =>
      rw [hr.parent, if_neg hne] at hq
      split at hq
      · cases hq
      · exact h.nodoc m q hq

/-- Documents stay sound, slots never hold a document node, and nodes keep their namespace. -/
structure Held (root : Nat) (D : Arena NodeData) (slots : Slots) : Prop where
  sound : D.Sound
  slot0 : slots 0 = some root
  nodoc : ∀ k n, slots k = some n → n < D.next ∧ (D.data n).kind ≠ .document

/-- Nodes are only added, and those that were there keep their namespace. -/
def Named (D D' : Arena NodeData) : Prop :=
  D.next ≤ D'.next ∧ ∀ m, m < D.next → (D'.data m).ns = (D.data m).ns

theorem Named.trans {A B C : Arena NodeData} (h : Named A B) (h' : Named B C) : Named A C :=
  ⟨Nat.le_trans h.1 h'.1, fun m hm => by rw [h'.2 m (Nat.lt_of_lt_of_le hm h.1), h.2 m hm]⟩

theorem Grows.named {A B : Arena NodeData} (h : Grows A B) : Named A B :=
  ⟨h.1, fun m hm => by rw [h.2 m hm]⟩

theorem Held.grow {root : Nat} {D D' : Arena NodeData} {slots : Slots} (h : Held root D slots)
    (hs : D'.Sound) (hg : Grows D D') : Held root D' slots :=
  ⟨hs, h.slot0, fun k n e => by
    obtain ⟨h1, h2⟩ := h.nodoc k n e
    exact ⟨Nat.lt_of_lt_of_le h1 hg.1, by rw [hg.2 n h1]; exact h2⟩⟩

theorem Held.upd {root : Nat} {D : Arena NodeData} {slots : Slots} (h : Held root D slots) {k : Nat}
    (hk : k ≠ 0) {v : Option Nat} (hv : ∀ n, v = some n → n < D.next ∧ (D.data n).kind ≠ .document) :
    Held root D (Arena.upd slots k v) :=
  ⟨h.sound, by rw [Arena.upd_ne _ _ (Ne.symm hk)]; exact h.slot0, fun i n e => by
    rw [Arena.upd_apply] at e
    split at e
    · exact hv n e
    · exact h.nodoc i n e⟩

theorem grows_put {D D' : Arena NodeData} {x p pos occ : Nat} (hd : DPut D D' x p pos occ) : Grows D D' :=
  ⟨by rw [hd.next]; exact Nat.le_refl _, fun m _ => hd.data m⟩

theorem grows_app {D D' : Arena NodeData} {x p pos : Nat} (hd : DApp D D' x p pos) : Grows D D' :=
  ⟨by rw [hd.next]; omega, fun m hm => by rw [hd.data, if_neg (by omega)]⟩

theorem grows_replaced {D D' : Arena NodeData} {n p : Nat} (hr : D.Replaced D' n p Document.emptyText) :
    Grows D D' :=
  ⟨by rw [hr.next]; omega, fun m hm => by rw [hr.data, if_neg (by omega)]⟩

theorem setData {root : Nat} {D : Arena NodeData} {slots : Slots} (h : Held root D slots) {n : Nat}
    {k k' : NodeKind} {ns : Ns} (hd : D.data n = ⟨k, ns⟩) (hk : k' ≠ .document)
    (h1 : ((∃ s, k' = .text s) ∨ (∃ s, k' = .comment s)) → (∃ s, k = .text s) ∨ (∃ s, k = .comment s))
    (h2 : ∀ tag attrs, k' = .element tag attrs → attrs.Unique) :
    Held root (D.setData n ⟨k', ns⟩) slots ∧ Named D (D.setData n ⟨k', ns⟩) := by
  have hdata : ∀ m, (D.setData n ⟨k', ns⟩).data m = if m = n then ⟨k', ns⟩ else D.data m := by
    intro m; simp [Arena.setData, Arena.upd_apply]
  refine ⟨⟨h.sound.setData n _ ?_ h2 (fun e => absurd e hk), h.slot0, fun i m e => ?_⟩, Nat.le_refl _,
    fun m _ => ?_⟩
  · intro e; exact h.sound.leaf n (by rw [hd]; exact h1 e)
  · obtain ⟨g1, g2⟩ := h.nodoc i m e
    refine ⟨g1, ?_⟩
    rw [hdata]
    split
    · exact hk
    · exact g2
  · rw [hdata]
    split
    · next e => subst e; rw [hd]
    · rfl

/-- One patch of the run in the library. -/
theorem regular {J : Nat → Prop} {parse : Str → Document} {D D' : Arena NodeData}
    {slots slots' : Slots} {root : Nat} {P : Patch} (hr : Regular J D slots P) (h : Held root D slots)
    (hu : P.UniqContent) (e : Hotmeal.applyPatch parse D slots P = .ok (D', slots')) :
    Held root D' slots' ∧ Named D D' := by
  have hL := lawful_native parse root
  have h0 := h.slot0
  have hw := h.sound.wf
  cases hr with
  | setText q n s ns t hq hd =>
    rcases hd with hd | hd
    · rw [hL.setText_text _ _ _ _ _ _ _ h0 hq hd] at e
      cases e
      exact setData h hd (by intro e; cases e) (fun _ => .inl ⟨_, rfl⟩) (by intro _ _ e; cases e)
    · rw [hL.setText_comment _ _ _ _ _ _ _ h0 hq hd] at e
      cases e
      exact setData h hd (by intro e; cases e) (fun _ => .inr ⟨_, rfl⟩) (by intro _ _ e; cases e)
  | updateProps q n tag attrs ns changes hq hd hk hn ht =>
    rw [hL.updateProps _ _ _ _ _ _ _ _ h0 hq hd hk hn ht] at e
    cases e
    exact setData h hd (by intro e; cases e) (by rintro (⟨_, e⟩ | ⟨_, e⟩) <;> cases e)
      (by intro _ _ e; cases e; exact rebuildAttrs_unique _ hn)
  | remove q n p hq hl hp =>
    obtain ⟨D2, e2, h2⟩ := hL.remove _ _ _ _ _ h0 hw hq hl hp
    rw [e2] at e; cases e
    exact ⟨h.grow (replaced h.sound h2 hp) (grows_replaced h2), (grows_replaced h2).named⟩
  | removeFree k n hk hsl hn hp =>
    obtain ⟨D2, s2, e2, h2, h3⟩ := hL.removeFree _ _ _ _ h0 hw hk hsl hn hp
    rw [e2] at e; cases e
    have hD : Held root D' slots ∧ Named D D' := by
      rcases h2 with rfl | rfl
      · exact ⟨h, Nat.le_refl _, fun _ _ => rfl⟩
      · exact ⟨h.grow (h.sound.newNode _ (by intro _ _ e; cases e)) (Grows.newNode _ _),
          (Grows.newNode _ _).named⟩
    rcases h3 with rfl | rfl
    · exact hD
    · exact ⟨hD.1.upd hk (by intro _ e; cases e), hD.2⟩
  | insert q nk cs p pos slot hc hcs hq he hpl ha =>
    have hD1 : ∃ D1, Created D D1 ⟨nk, .html⟩ ∧ D1.Sound ∧ insertAt D1 slots (q ++ [pos]) D.next slot =
        .ok (D', slots') := by
      cases nk with
      | document => exact hc.elim
      | element tag attrs =>
        obtain ⟨D1, e1, h1, _⟩ := hw.createdContent tag attrs cs
        refine ⟨D1, h1, ?_, ?_⟩
        · exact (contents cs (h.sound.newNode _ (by intro _ _ e; cases e; exact hu.1)) hu.2
            (p := D.next) (by simp) (.inr ⟨tag, attrs, by rw [Arena.newNode_data, if_pos rfl]⟩) e1).1
        · simp only [insertPatch, Hotmeal.applyPatch, bind, Except.bind, Arena.newNode_snd, e1] at e
          exact e
      | text s =>
        refine ⟨_, hw.created _, h.sound.newNode _ (by intro _ _ e; cases e), ?_⟩
        simp only [insertPatch, Hotmeal.applyPatch, Arena.newNode_snd] at e
        exact e
      | comment s =>
        refine ⟨_, hw.created _, h.sound.newNode _ (by intro _ _ e; cases e), ?_⟩
        simp only [insertPatch, Hotmeal.applyPatch, Arena.newNode_snd] at e
        exact e
    obtain ⟨D1, h1, hs1, e⟩ := hD1
    have hg1 : Grows D D1 := ⟨Nat.le_of_lt h1.next_lt, h1.data⟩
    have hch := h1.children p hpl
    have hp1 : (D1.data p).kind.IsElement := by rw [h1.data p hpl]; exact he
    have hx1 : (D1.data D.next).kind ≠ .document := by
      rw [h1.node]
      intro e
      simp only at e
      rw [e] at hc
      exact hc
    have H1 := h.grow hs1 hg1
    rcases ha with ⟨k, occ, rfl, hk, hocc⟩ | ⟨rfl, ha⟩
    · obtain ⟨D2, e2, h2⟩ := insertAt_put (k := k) h1.wf (h1.navigate hw hq) (by rw [hch]; exact hocc)
        h1.next_lt h1.self (h1.not_anc hw hpl)
      rw [e2] at e; cases e
      refine ⟨(H1.grow (put hs1 h2 hp1 hx1) (grows_put h2)).upd hk ?_, (hg1.trans (grows_put h2)).named⟩
      rintro n e; cases e
      have hpar := (h1.wf.mem_iff occ p).1 (by rw [hch]; exact List.mem_of_getElem? hocc)
      exact ⟨by rw [h2.next]; exact (h1.wf.lt_of_parent _ _ hpar).1,
        by rw [h2.data]; exact hs1.nodoc _ _ hpar⟩
    · obtain ⟨D2, e2, h2⟩ := insertAt_app (pos := pos) h1.wf (h1.navigate hw hq) (Nat.lt_trans hpl h1.next_lt)
        h1.next_lt h1.self (h1.not_anc hw hpl)
      rw [e2] at e; cases e
      exact ⟨H1.grow (app hs1 h2 hp1 (Nat.lt_trans hpl h1.next_lt) hx1) (grows_app h2),
        (hg1.trans (grows_app h2)).named⟩
  | move q n q' p pos slot hq hn hc hm =>
    obtain ⟨D1, s1, ht, h1, h2⟩ := hL.move _ _ _ _ h0 hw hq hn hc
    obtain ⟨m1, m2, m3, m4, m5⟩ := hm D1 s1 ht
    have hD1 : Held root D1 s1 ∧ Grows D D1 ∧ (D1.data n).kind ≠ .document := by
      rcases ht with ⟨_, rfl, hr⟩ | ⟨k, rfl, rfl, hs1⟩
      · rcases hc with ⟨_, p0, hp0⟩ | ⟨hl, _⟩
        · have hr := hr p0 hp0
          have hg := grows_replaced hr
          exact ⟨h.grow (replaced h.sound hr hp0) hg, hg, by rw [hg.2 n hn]; exact h.sound.nodoc n p0 hp0⟩
        · omega
      · have hk : k ≠ 0 := by
          rcases hc with ⟨hl, _⟩ | ⟨_, hne, _⟩
          · simp at hl
          · exact fun e => hne (by rw [e])
        have hnk : slots k = some n := by
          simp only [navigate, navLoop] at hq
          cases hk : slots k with
          | none => rw [hk] at hq; cases hq
          | some r => rw [hk] at hq; cases hq; rfl
        refine ⟨?_, ⟨Nat.le_refl _, fun _ _ => rfl⟩, (h.nodoc k n hnk).2⟩
        rcases hs1 with rfl | rfl
        · exact h
        · exact h.upd hk (by intro _ e; cases e)
    obtain ⟨H1, hg1, hx1⟩ := hD1
    rcases m5 with ⟨k, occ, rfl, hk, hocc⟩ | ⟨rfl, ha⟩
    · obtain ⟨D2, e2, h3⟩ := h1 q' p pos occ k hk m1 m2 m3 m4 hocc
      rw [e2] at e; cases e
      refine ⟨(H1.grow (put H1.sound h3 m2 hx1) (grows_put h3)).upd hk ?_, (hg1.trans (grows_put h3)).named⟩
      rintro i e; cases e
      have hpar := (H1.sound.wf.mem_iff occ p).1 (List.mem_of_getElem? hocc)
      exact ⟨by rw [h3.next]; exact (H1.sound.wf.lt_of_parent _ _ hpar).1,
        by rw [h3.data]; exact H1.sound.nodoc _ _ hpar⟩
    · obtain ⟨D2, e2, h3⟩ := h2 q' p pos m1 m2 m3 m4
      rw [e2] at e; cases e
      exact ⟨H1.grow (app H1.sound h3 m2 m3 hx1) (grows_app h3), (hg1.trans (grows_app h3)).named⟩

theorem trace {J : Nat → Prop} {parse : Str → Document} {B : Arena TData} {ins : List Nat}
    {g : Nat → Nat} {root : Nat} {w w2 : World} {ops : List EditOp} {ps : List Patch}
    (ht : Trace B ins (Hotmeal.applyPatch parse) g J w ops ps w2) (h : Held root w.D w.slots)
    (hp : ∀ P ∈ ps, P.UniqContent) : w2.D.Sound ∧ Named w.D w2.D := by
  induction ht with
  | nil => exact ⟨h.sound, Nat.le_refl _, fun _ _ => rfl⟩
  | cons _ hs _ hr _ ih =>
    obtain ⟨h1, h2⟩ := regular hr h (hp _ List.mem_cons_self) hs
    obtain ⟨h3, h4⟩ := ih h1 fun Q hQ => hp Q (List.mem_cons_of_mem _ hQ)
    exact ⟨h3, h2.trans h4⟩

end SoundRun
end Hotmeal
