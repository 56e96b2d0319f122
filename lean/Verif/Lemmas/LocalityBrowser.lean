import Verif.Lemmas.Locality
import Verif.Lemmas.RewriteBrowser

set_option autoImplicit false
set_option linter.unusedSectionVars false

/-!
# Nodes of the page that the patches do not lead to
-/

namespace Hotmeal

/-- `n` belongs to one of the blocks `K` of `b`. -/
def InBlocks (E : Arena NodeData) (b : Nat) (K : Nat → Prop) (n : Nat) : Prop :=
  ∃ k m, K k ∧ (E.children b)[k]? = some m ∧ E.Anc m n

/-- The blocks `K` of `b` are still at their places in `A`, with all their nodes. -/
structure KeepsBlocks (E : Arena NodeData) (b : Nat) (K : Nat → Prop) (A : Arena NodeData) : Prop where
  has : ∀ k, K k → ∃ m, (E.children b)[k]? = some m
  place : ∀ k, K k → (A.children b)[k]? = (E.children b)[k]?
  nodes : ∀ n, InBlocks E b K n → A.children n = E.children n ∧ A.data n = E.data n

namespace KeepsBlocks

variable {E A A' : Arena NodeData} {b : Nat} {K F : Nat → Prop} {slots slots' : Slots} {σ σ' : Store}
  {hand : Option (Nat × Html)}

theorem anc (hE : E.WF) (hA : A.WF) (hg : KeepsBlocks E b K A) {k m n : Nat} (hk : K k)
    (hm : (E.children b)[k]? = some m) (ha : E.Anc m n) : A.Anc m n := by
  induction ha with
  | refl => exact .refl
  | @step n p hp ha ih =>
    refine .step ((hA.mem_iff _ _).1 ?_) ih
    rw [(hg.nodes p ⟨k, m, hk, hm, ha⟩).1]
    exact (hE.mem_iff _ _).2 hp

/-- A node in the blocks is below `b`, and below a child with index in `K`. -/
theorem below (hE : E.WF) (hA : A.WF) (hg : KeepsBlocks E b K A) {n : Nat} (hn : InBlocks E b K n) :
    ∃ k m, K k ∧ (A.children b)[k]? = some m ∧ A.parent m = some b ∧ A.Anc m n := by
  obtain ⟨k, m, hk, hm, ha⟩ := hn
  have h1 : (A.children b)[k]? = some m := by rw [hg.place k hk, hm]
  exact ⟨k, m, hk, h1, (hA.mem_iff _ _).1 (List.mem_of_getElem? h1), hg.anc hE hA hk hm ha⟩

theorem lt (hE : E.WF) {n : Nat} (hn : InBlocks E b K n) : n < E.next := by
  obtain ⟨k, m, hk, hm, ha⟩ := hn
  exact lt_of_anc hE (hE.lt_of_parent _ _ ((hE.mem_iff _ _).1 (List.mem_of_getElem? hm))).1 ha

/-- Another root has nothing in common with what is below `b`. -/
theorem root_eq (hF : Fence E b F) (h : Rep E b F A slots σ hand) {r n : Nat} (hr : Live slots σ hand r)
    (h1 : A.Anc r n) (h2 : A.Anc b n) : r = b := by
  refine Classical.byContradiction fun hne => ?_
  rcases Arena.anc_total h1 h2 with ha | ha
  · rcases ha.cases' with e | ⟨p, hp, ha'⟩
    · exact hne e
    · rw [h.grove.bpar] at hp
      exact h.grove.out r hr (h.grove.up hF (hF.base p hp) ha')
  · rcases ha.cases' with e | ⟨p, hp, ha'⟩
    · exact hne e.symm
    · rw [h.grove.free r hr hne] at hp; cases hp

/-- Where a path leads that does not go through the blocks. -/
theorem reached (hE : E.WF) (hF : Fence E b F) (h : Rep E b F A (Wasm.view b slots) σ hand)
    (hg : KeepsBlocks E b K A) {q : Path} {u : Html} {n : Nat} (hf : σ.find q = some u)
    (hn : navigate A (Wasm.view b slots) q = .ok n) :
    ((∀ k, K k → ¬ [0, k] <+: q) → ¬ InBlocks E b K n) ∧ (n = b → q = [0]) := by
  have hA := h.grove.wf
  obtain ⟨s, q', t', r, n', rfl, hs, hrs, ht, hgt, hl, hn1, htp, ha, hlt⟩ := h.find hF hf
  rw [hn] at hn1; cases hn1
  have hlive : Live (Wasm.view b slots) σ hand r := Rep.live_slot hs hrs
  have hzero : A.Anc b n → s = 0 ∧ r = b := by
    intro hb
    have := root_eq hF h hlive ha hb
    subst this
    exact ⟨h.inj s 0 (by rw [hs]; simp) h.filled (by rw [hrs, h.zero]), rfl⟩
  constructor
  · intro hav hin
    obtain ⟨k, m, hk, hm, hmp, hma⟩ := hg.below hE hA hin
    obtain ⟨rfl, rfl⟩ := hzero (.trans (.step hmp .refl) hma)
    cases q' with
    | nil =>
      cases hl
      exact hA.self_parent_ne hmp (hA.anc_antisymm (.step hmp .refl) hma)
    | cons i is =>
      simp only [navLoop] at hl
      cases ec : (A.children r)[i]? with
      | none => rw [ec] at hl; cases hl
      | some c =>
        rw [ec] at hl
        have hcp := (hA.mem_iff _ _).1 (List.mem_of_getElem? ec)
        have hca := hA.navLoop_anc hl
        have key : ∀ {c d : Nat}, A.parent c = some r → A.parent d = some r → A.Anc c d → c = d := by
          intro c d hc hd ha
          rcases ha.cases' with e | ⟨p', hp', ha'⟩
          · exact e
          · rw [hd] at hp'; cases hp'
            exact absurd (hA.anc_antisymm (.step hc .refl) ha') (hA.self_parent_ne hc)
        have hcm : c = m := by
          rcases Arena.anc_total hca hma with h1 | h1
          · exact key hcp hmp h1
          · exact (key hmp hcp h1).symm
        subst hcm
        obtain ⟨h1, e1⟩ := List.getElem?_eq_some_iff.1 ec
        obtain ⟨h2, e2⟩ := List.getElem?_eq_some_iff.1 hm
        have : i = k := (List.getElem_inj (hA.nodup r)).1 (e1.trans e2.symm)
        subst this
        exact hav i hk (by simp)
  · rintro rfl
    obtain ⟨rfl, rfl⟩ := hzero .refl
    cases q' with
    | nil => rfl
    | cons i is =>
      simp only [navLoop] at hl
      cases ec : (A.children r)[i]? with
      | none => rw [ec] at hl; cases hl
      | some c =>
        rw [ec] at hl
        have hcp := (hA.mem_iff _ _).1 (List.mem_of_getElem? ec)
        have hca := hA.navLoop_anc hl
        exact absurd (hA.anc_antisymm (.step hcp .refl) hca) (hA.self_parent_ne hcp)

theorem changed (hE : E.WF) (hle : E.next ≤ A.next) (hg : KeepsBlocks E b K A) (hbl : b < A.next) {p : Nat}
    (hc : ∀ m, m < A.next → m ≠ p → A'.children m = A.children m ∧ A'.data m = A.data m)
    (hp : ¬ InBlocks E b K p)
    (hb : p = b → ∀ k, K k → (A'.children b)[k]? = (A.children b)[k]?) : KeepsBlocks E b K A' where
  has := hg.has
  place k hk := by
    by_cases e : p = b
    · rw [hb e k hk, hg.place k hk]
    · rw [(hc b hbl (Ne.symm e)).1, hg.place k hk]
  nodes n hn := by
    have h1 := lt hE hn
    have h2 : n ≠ p := by rintro rfl; exact hp hn
    obtain ⟨e1, e2⟩ := hc n (by omega) h2
    rw [e1, e2]
    exact hg.nodes n hn

theorem grows (hE : E.WF) (hle : E.next ≤ A.next) (hg : KeepsBlocks E b K A) (hbl : b < A.next) (h : Grows A A') :
    KeepsBlocks E b K A' where
  has := hg.has
  place k hk := by rw [h.children b hbl, hg.place k hk]
  nodes n hn := by
    have h1 := lt hE hn
    rw [h.children n (by omega), h.data n (by omega)]
    exact hg.nodes n hn

theorem le_of (h : Rep E b F A slots σ hand) (hF : Fence E b F) : E.next ≤ A.next ∧ b < A.next :=
  ⟨h.grove.le, Nat.lt_of_lt_of_le hF.blt h.grove.le⟩

theorem insert (hE : E.WF) (hF : Fence E b F) {x : Nat} {t : Html}
    (h : Rep E b F A (Wasm.view b slots) σ (some (x, t))) (hg : KeepsBlocks E b K A) {at_ : Path}
    {slot : Option Nat} (hav : ∀ k, K k → ¬ [0, k] <+: at_)
    (hi : σ.insert false at_ t slot = some σ') {p pos : Nat} (e1 : Wasm.insertParent b A slots at_ = .ok (p, pos))
    (e2 : Wasm.insertAtPosition A slots p x pos slot = .ok (A', slots')) : KeepsBlocks E b K A' := by
  have hA := h.grove.wf
  obtain ⟨hle, hbl⟩ := le_of h hF
  rcases snoc_cases at_ with rfl | ⟨q, pos', rfl⟩
  · simp [Store.insert] at hi
  obtain ⟨hk0, tag, attrs, cs, hf, hi⟩ := Rep.insert_eq hi
  obtain ⟨s, q', t', r, p', e2', hs, hrs, ht, hgt, hl, hn, htp, ha, hlt⟩ := h.find hF hf
  have hxl : Live (Wasm.view b slots) σ (some (x, t)) x := .inr ⟨t, rfl⟩
  have hxlt := h.grove.lt x hxl
  have hxp := h.grove.free x hxl (h.hand_ne rfl)
  have hanc := h.hand_not_anc hF hf hn
  obtain ⟨hel, hcs⟩ := Rep.isElement_of_tree hA htp
  rw [Wasm.insertParent_eq hn hel] at e1
  cases e1
  obtain ⟨hr1, hr2⟩ := hg.reached hE hF h hf hn
  have hout : ¬ InBlocks E b K p := hr1 fun k hk hp => hav k hk (hp.trans (List.prefix_append _ _))
  have hpos : p = b → ¬ K pos := fun e hk => hav pos hk (by rw [hr2 e]; exact List.prefix_refl _)
  cases eo : (A.children p)[pos]? with
  | some o =>
    obtain ⟨A1, e, hd⟩ := Wasm.replaceChild_put hA eo hxlt hxp hanc
    have : A' = A1 := by
      simp only [Wasm.insertAtPosition, eo, e, bind, Except.bind] at e2
      cases slot <;> · cases e2; rfl
    subst this
    refine hg.changed hE hle hbl (p := p) (fun m _ hm => ⟨by rw [hd.children, if_neg hm], hd.data m⟩) hout ?_
    rintro rfl k hk
    rw [hd.children, if_pos rfl, List.getElem?_set_ne]
    rintro rfl
    exact hpos rfl hk
  | none =>
    have hge := List.getElem?_eq_none_iff.1 eo
    obtain ⟨A1, e, w, n, -, c, d⟩ := hA.fill_append hlt hxlt hxp hanc Document.emptyText
      (pos - (A.children p).length)
    have : A' = A1 := by
      simp only [Wasm.insertAtPosition, eo, docFillGaps_eq, bind, Except.bind, Wasm.appendChild_of e] at e2
      cases e2; rfl
    subst this
    refine hg.changed hE hle hbl (p := p)
      (fun m hm hne => ⟨by rw [c, if_neg hne], by rw [d, if_neg (by omega)]⟩) hout ?_
    rintro rfl k hk
    have h1 := hg.place k hk
    rw [c, if_pos rfl]
    cases ek : (A.children p)[k]? with
    | none =>
      obtain ⟨m, hm⟩ := hg.has k hk
      rw [← h1, ek] at hm
      cases hm
    | some m =>
      have := (List.getElem?_eq_some_iff.1 ek).1
      rw [List.append_assoc, List.getElem?_append_left this, ek]

theorem take (hE : E.WF) (hF : Fence E b F) (h : Rep E b F A (Wasm.view b slots) σ none)
    (hg : KeepsBlocks E b K A) {s i : Nat} {is : List Nat} (hav : ∀ k, K k → ¬ [0, k] <+: s :: i :: is) {u : Html}
    (hf : σ.find (s :: i :: is) = some u) {n : Nat} (hn : Wasm.findNode b A slots (s :: i :: is) = .ok n)
    (e : Wasm.replaceByEmpty A n = .ok A') : KeepsBlocks E b K A' := by
  have hA := h.grove.wf
  obtain ⟨hle, hbl⟩ := le_of h hF
  obtain ⟨l, a, el⟩ : ∃ l a, i :: is = l ++ [a] := by
    rcases snoc_cases (i :: is) with e | e
    · cases e
    · exact e
  rw [el] at hf hn hav
  obtain ⟨s1, q', t', r, n', e2, hs, hrs, ht, hgt, hl, hn', htp, ha, hlt⟩ := h.find hF hf
  cases e2
  rw [Wasm.findNode, hn'] at hn
  cases hn
  obtain ⟨p, hp1, hp2⟩ := navLoop_concat.1 hl
  have hpar := (hA.mem_iff _ _).1 (List.mem_of_getElem? hp2)
  obtain ⟨A1, e1, hr⟩ := Wasm.replaceByEmpty_repl hA hpar
  rw [e] at e1; cases e1
  obtain ⟨tag, attrs, cs, h1, h2, h3⟩ := Store.find_concat (q := s :: l) (by simp) hf
  obtain ⟨hr1, hr2⟩ := hg.reached hE hF h h1 (n := p) (by simp only [navigate, hrs]; rw [hp1])
  have hav' : ∀ k, K k → ¬ [0, k] <+: s :: l ++ [a] := hav
  refine hg.changed hE hle hbl (p := p)
    (fun m hm hne => ⟨by rw [hr.children, if_neg hne], by rw [hr.data, if_neg (by omega)]⟩)
    (hr1 fun k hk hp => hav' k hk (hp.trans (List.prefix_append _ _))) ?_
  rintro rfl k hk
  rw [hr.children, if_pos rfl, Arena.swapIn_getElem?]
  cases ek : (A.children p)[k]? with
  | none => rfl
  | some m =>
    have : m ≠ n := by
      rintro rfl
      obtain ⟨h1, e1⟩ := List.getElem?_eq_some_iff.1 ek
      obtain ⟨h2, e2⟩ := List.getElem?_eq_some_iff.1 hp2
      have : k = a := (List.getElem_inj (hA.nodup p)).1 (e1.trans e2.symm)
      subst this
      exact hav' k hk (by rw [hr2 rfl]; exact List.prefix_refl _)
    simp [this]

/-- **One patch.** -/
theorem step (hE : E.WF) (hF : Fence E b F) (h : Rep E b F A (Wasm.view b slots) σ none)
    (hg : KeepsBlocks E b K A) {P : Patch} (hP : P.Avoids K) (ht : P.NoRootText)
    (ha : Dialect.page.apply σ P = some σ') (e : Wasm.applyPatch b A slots P = .ok (A', slots')) :
    KeepsBlocks E b K A' := by
  have hA := h.grove.wf
  obtain ⟨hle, hbl⟩ := le_of h hF
  -- inserting what `r` builds
  have ins : ∀ {r : Arena NodeData → Res (Arena NodeData × Nat)} {t : Html}, Builds r t →
      ∀ {at_ : Path} {slot : Option Nat}, (∀ k, K k → ¬ [0, k] <+: at_) → σ.insert false at_ t slot = some σ' →
      ∀ {p pos : Nat} {A1 : Arena NodeData} {x : Nat}, Wasm.insertParent b A slots at_ = .ok (p, pos) →
        r A = .ok (A1, x) →
        Wasm.insertAtPosition A1 slots p x pos slot = .ok (A', slots') → KeepsBlocks E b K A' := by
    intro r t hr at_ slot hav hi p pos A1 x i1 i2 i3
    obtain ⟨A1', x', e, hgr, hx, hx', hxp, htx⟩ := hr A hA
    rw [i2] at e; cases e
    have h1 := h.grabNew hF hgr hx hx' hxp htx
    refine (hg.grows hE hle hbl hgr).insert hE hF h1 hav hi ?_ i3
    rcases snoc_cases at_ with rfl | ⟨q, pos', rfl⟩
    · simp [Store.insert] at hi
    · obtain ⟨_, tag, attrs, cs, hf, _⟩ := Rep.insert_eq hi
      obtain ⟨_, _, _, _, p1, _, _, _, _, _, _, hn1, htp, _, _⟩ := h1.find hF hf
      have hel := (Rep.isElement_of_tree h1.grove.wf htp).1
      obtain ⟨hn, hd⟩ := Rep.find_grows hF h h1 hgr hf hn1
      rw [Wasm.insertParent_eq hn1 hel]
      rw [Wasm.insertParent_eq hn (by rw [← hd]; exact hel)] at i1
      exact i1
  -- changing the data of a node
  have upd : ∀ {path : Path} {u : Html} {n : Nat} {d : NodeData}, (∀ k, K k → ¬ [0, k] <+: path) →
      σ.find path = some u → navigate A (Wasm.view b slots) path = .ok n → KeepsBlocks E b K (A.setData n d) := by
    intro path u n d hav hf hn
    refine hg.changed hE hle hbl (p := n) (fun m _ hm => ⟨rfl, by simp [Arena.setData, Arena.upd_apply, hm]⟩)
      ((hg.reached hE hF h hf hn).1 hav) fun _ _ _ => rfl
  -- setting a text
  have text : ∀ {path : Path} {u : Html} {n : Nat} (s : Str), (∀ k, K k → ¬ [0, k] <+: path) →
      σ.find path = some u → navigate A (Wasm.view b slots) path = .ok n → n < A.next → path ≠ [0] →
      KeepsBlocks E b K (Wasm.setTextContent A n s) := by
    intro path u n s hav hf hn hlt h0
    have hb : n ≠ b := fun e => h0 ((hg.reached hE hF h hf hn).2 e)
    cases ed : A.data n with
    | mk k ns =>
      cases k with
      | text s0 =>
        have : Wasm.setTextContent A n s = A.setData n ⟨.text s, ns⟩ := by unfold Wasm.setTextContent; rw [ed]
        rw [this]; exact upd hav hf hn
      | comment s0 =>
        have : Wasm.setTextContent A n s = A.setData n ⟨.comment s, ns⟩ := by unfold Wasm.setTextContent; rw [ed]
        rw [this]; exact upd hav hf hn
      | document =>
        have : Wasm.setTextContent A n s = A := by unfold Wasm.setTextContent; rw [ed]
        rw [this]; exact hg
      | element tag attrs =>
        obtain ⟨hc, _⟩ := Rep.setTextContent_element hA hlt ed s
        exact hg.changed hE hle hbl (p := n) (fun m hm hne => ⟨hc.children m hm hne, hc.data m hm hne⟩)
          ((hg.reached hE hF h hf hn).1 hav) fun e => absurd e hb
  cases P with
  | insertElement at_ tag attrs cs slot =>
    simp only [Wasm.applyPatch] at e
    obtain ⟨⟨p, pos⟩, e1, e⟩ := res_bind e
    obtain ⟨⟨A1, x⟩, e2, e⟩ := res_bind e
    exact ins (Wasm.createInsertContent_builds (.element tag attrs cs)) (hP at_ (by simp [Patch.paths])) ha e1 e2 e
  | insertText at_ s slot =>
    simp only [Wasm.applyPatch] at e
    obtain ⟨⟨p, pos⟩, e1, e⟩ := res_bind e
    exact ins (Wasm.createInsertContent_builds (.text s)) (hP at_ (by simp [Patch.paths])) ha e1
      (by simp only [Wasm.createInsertContent]) e
  | insertComment at_ s slot =>
    simp only [Wasm.applyPatch] at e
    obtain ⟨⟨p, pos⟩, e1, e⟩ := res_bind e
    exact ins (Wasm.createInsertContent_builds (.comment s)) (hP at_ (by simp [Patch.paths])) ha e1
      (by simp only [Wasm.createInsertContent]) e
  | remove path =>
    simp only [Dialect.apply, Option.map_eq_some_iff, Prod.exists, exists_eq_right] at ha
    obtain ⟨t, ha⟩ := ha
    rcases h.browser_take hF ha with ⟨s, i, is, n, A1, rfl, hn, e1, hr⟩ | ⟨s, x, rfl, h0, hs, hr⟩
    · simp only [Wasm.applyPatch, hn, bind, Except.bind, e1] at e
      cases e
      unfold Store.take at ha
      cases ef : σ.find (s :: i :: is) with
      | none => rw [ef] at ha; cases ha
      | some u => exact hg.take hE hF h (hP _ (by simp [Patch.paths])) ef hn e1
    · simp only [Wasm.applyPatch, if_neg h0] at e
      cases e
      exact hg
  | move from_ to_ slot =>
    simp only [Dialect.apply] at ha
    cases et : σ.take from_ with
    | none => rw [et] at ha; cases ha
    | some r =>
      obtain ⟨t, σ1⟩ := r
      rw [et] at ha
      simp only [Dialect.page] at ha
      have hto := hP to_ (by simp [Patch.paths])
      rcases h.browser_take hF et with ⟨s, i, is, n, A1, rfl, hn, e1, hr⟩ | ⟨s, x, rfl, h0, hs, hr⟩
      · simp only [Wasm.applyPatch, hn, bind, Except.bind, e1] at e
        have hg1 : KeepsBlocks E b K A1 := by
          unfold Store.take at et
          cases ef : σ.find (s :: i :: is) with
          | none => rw [ef] at et; cases et
          | some u => exact hg.take hE hF h (hP _ (by simp [Patch.paths])) ef hn e1
        obtain ⟨⟨p, pos⟩, e3, e⟩ := res_bind e
        exact hg1.insert hE hF hr hto ha e3 e
      · simp only [Wasm.applyPatch, hs, bind, Except.bind] at e
        obtain ⟨⟨p, pos⟩, e3, e⟩ := res_bind e
        exact hg.insert hE hF hr hto ha e3 e
  | setText path s =>
    simp only [Dialect.apply] at ha
    cases ef : σ.find path with
    | none => rw [ef] at ha; cases ha
    | some u =>
      obtain ⟨_, _, _, _, n, _, _, _, _, _, _, hn, htn, _, hlt⟩ := h.find hF ef
      simp only [Wasm.applyPatch, Wasm.findNode, hn, bind, Except.bind] at e
      cases e
      exact text s (hP _ (by simp [Patch.paths])) ef hn hlt ht
  | setAttribute path name v =>
    simp only [Dialect.apply] at ha
    cases ef : σ.find path with
    | none => rw [ef] at ha; cases ha
    | some u =>
      obtain ⟨_, _, _, _, n, _, _, _, _, _, _, hn, htn, _, hlt⟩ := h.find hF ef
      simp only [Wasm.applyPatch, Wasm.findNode, hn, bind, Except.bind] at e
      split at e
      · cases e; exact upd (hP _ (by simp [Patch.paths])) ef hn
      · cases e
  | removeAttribute path name =>
    simp only [Dialect.apply] at ha
    cases ef : σ.find path with
    | none => rw [ef] at ha; cases ha
    | some u =>
      obtain ⟨_, _, _, _, n, _, _, _, _, _, _, hn, htn, _, hlt⟩ := h.find hF ef
      simp only [Wasm.applyPatch, Wasm.findNode, hn, bind, Except.bind] at e
      split at e
      · cases e; exact upd (hP _ (by simp [Patch.paths])) ef hn
      · cases e
  | updateProps path changes =>
    simp only [Dialect.apply] at ha
    cases ef : σ.find path with
    | none => rw [ef] at ha; cases ha
    | some u =>
      obtain ⟨_, _, _, _, n, _, _, _, _, _, _, hn, htn, _, hlt⟩ := h.find hF ef
      have hav := hP path (by simp [Patch.paths])
      rw [Rep.applyPatch_updateProps hn] at e
      cases e
      have h1 : KeepsBlocks E b K (Rep.textStep A n changes) ∧ E.next ≤ (Rep.textStep A n changes).next ∧
          b < (Rep.textStep A n changes).next := by
        unfold Rep.textStep
        cases et : textChange changes with
        | none => exact ⟨hg, hle, hbl⟩
        | some t =>
          refine ⟨text t hav ef hn hlt fun e0 => ?_, ?_⟩
          · rw [ht e0] at et; cases et
          · have : A.next ≤ (Wasm.setTextContent A n t).next := by
              cases ed : A.data n with
              | mk k ns =>
                cases k with
                | element tag attrs => exact (Rep.setTextContent_element hA hlt ed t).1.le
                | _ => unfold Wasm.setTextContent; rw [ed]; exact Nat.le_refl _
            exact ⟨Nat.le_trans hle this, Nat.lt_of_lt_of_le hbl this⟩
      unfold Rep.attrStep
      split
      · exact h1.1.changed hE h1.2.1 h1.2.2 (p := n)
          (fun m _ hm => ⟨rfl, by simp [Arena.setData, Arena.upd_apply, hm]⟩)
          ((hg.reached hE hF h ef hn).1 hav) fun _ _ _ => rfl
      · exact h1.1
  | opaqueChanged path s =>
    simp only [Wasm.applyPatch] at e
    obtain ⟨n, _, e⟩ := res_bind e
    obtain ⟨_, _, e⟩ := res_bind e
    cases e
    exact hg

theorem run (hE : E.WF) (hF : Fence E b F) : ∀ (ps : List Patch) {A A' : Arena NodeData} {slots slots' : Slots}
    {σ σ' : Store}, Rep E b F A (Wasm.view b slots) σ none → KeepsBlocks E b K A →
    (∀ P ∈ ps, P.Avoids K ∧ P.NoRootText) → Dialect.page.run σ ps = some σ' →
    Wasm.applyLoop b A slots ps = .ok (A', slots') → KeepsBlocks E b K A'
  | [], _, _, _, _, _, _, _, hg, _, _, e => by cases e; exact hg
  | P :: ps, A, A', slots, slots', σ, σ', h, hg, hP, hr, e => by
    simp only [Dialect.run] at hr
    split at hr
    · cases hr
    · next σ1 e1 =>
      obtain ⟨A1, slots1, f1, f2⟩ := h.browser_step hF e1
      simp only [Wasm.applyLoop, f1, bind, Except.bind] at e
      have h1 := hP P List.mem_cons_self
      exact run hE hF ps f2 (hg.step hE hF h h1.1 h1.2 e1 f1) (fun Q hQ => hP Q (List.mem_cons_of_mem _ hQ)) hr e

end KeepsBlocks
end Hotmeal
