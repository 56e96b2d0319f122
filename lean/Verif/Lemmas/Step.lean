import Verif.Lemmas.Applier

set_option autoImplicit false

/-!
# One edit operation: emitting the patch and applying it
-/

namespace Hotmeal

/-- The document node kind described by tree data. -/
def kindOf (d : TData) : NodeKind := match d.kind with
  | .element tag _ => .element tag d.props
  | .text => .text (d.text.getD [])
  | .comment => .comment (d.text.getD [])

/-- Surplus nodes of the initial document `D0`: children of old nodes that are not document nodes of
the old tree. -/
def Surplus (X : Ctx) (D0 : Arena NodeData) (f0 : Nat → Nat) (j : Nat) : Prop :=
  ∃ n, X.Open n ∧ j ∈ D0.children (f0 n) ∧ ∀ m, X.Old m → f0 m ≠ j

/-- Conversion state and patched document fit together. `f0` gives the document nodes of the old
tree, `nb` is the root of the new tree, `k0` is the kind of the patched root. -/
structure Inv (X : Ctx) (nb : Nat) (k0 : NodeKind) (Out : Nat → Prop) (D0 : Arena NodeData) (f0 : Nat → Nat)
    (C : Conv) (D : Arena NodeData) (slots : Slots) (f : Nat → Nat) (T : Nat → Prop)
    (K : Nat → Mark) (Ins Del Set hole : Nat → Prop) : Prop where
  st : Struct X C.shadow C.bToShadow Ins Del Set hole
  sim : Sim 0 Out (Surplus X D0 f0) D0 C.shadow D slots f T K
  oldT : ∀ n, X.Old n → T n
  insT : ∀ b n, C.bToShadow b = some n → T n
  other : ∀ n, T n → X.Real C.bToShadow Ins Del n ∨ Del n ∨ K n = (.text [], none)
  content : ∀ b n, C.bToShadow b = some n → b ≠ nb → (K n).1 = kindOf (X.B.data b)
  mark : ∀ b n, C.bToShadow b = some n → (K n).2 = X.body b
  rootB : C.bToShadow nb = some 0
  rootK : (K 0).1 = k0
  rootE : k0.IsElement
  fixed : ∀ n, X.Old n → f n = f0 n
  slot0 : ∃ p, C.shadow.arena.parent 0 = some p ∧ C.shadow.IsSlot p ∧
    Arena.posIn (C.shadow.arena.children C.shadow.superRoot) p = 0

namespace Shadow

/-- Placing a node does not change the path of the new parent. -/
theorem Placed.isPath {S S' : Shadow} {x p pos : Nat} {slot : Option Nat} (hsh : S.Shape)
    (h : S.Placed S' x p pos slot) (hxp : S.arena.parent x = none) (hps : p ≠ S.superRoot)
    {q : Path} (hq : S.IsPath p q) : S'.IsPath p q := by
  have hw := hsh.wf
  have hacyc : ∀ m, S.arena.Anc m p → S.arena.parent m ≠ some p := by
    intro m ha hm
    have h1 : S.arena.Anc p m := .step hm .refl
    have := hw.anc_antisymm ha h1
    subst this
    exact hw.self_parent_ne hm rfl
  rcases h with ⟨occ, hS, -⟩ | ⟨hS, -⟩
  · have hop : S.arena.parent occ = some p := (hw.mem_iff _ _).1 (List.mem_of_getElem? hS.at_)
    refine hq.congr hS.super ?_
    intro m p' ha hp'
    have hlt := hw.lt_of_parent _ _ hp'
    have h1 : m ≠ occ := by rintro rfl; exact hacyc m ha hop
    have h2 : m ≠ x := by rintro rfl; rw [hxp] at hp'; cases hp'
    have h3 : p' ≠ p := by rintro rfl; exact hacyc m ha hp'
    refine ⟨?_, ?_, ?_⟩
    · rw [hS.parent, if_neg (by omega), if_neg h1, if_neg h2, hp']
    · rw [hS.parent, if_neg (by omega)]
      by_cases h4 : p' = occ
      · subst h4
        exact absurd hop (hacyc _ (Arena.Anc.trans (.step hp' .refl) ha))
      · rw [if_neg h4]
        by_cases h5 : p' = x
        · subst h5
          rw [if_pos rfl, hxp]
          constructor
          · intro e; injection e with e; exact absurd e hps
          · intro e; cases e
        · rw [if_neg h5]
    · rw [hS.children, if_neg (by omega)]
      by_cases h4 : p' = S.superRoot
      · subst h4
        rw [if_pos rfl, posIn_append ((hw.mem_iff _ _).2 hp')]
      · rw [if_neg h4, if_neg h3]
  · refine hq.congr hS.super ?_
    intro m p' ha hp'
    have hlt := hw.lt_of_parent _ _ hp'
    have h2 : m ≠ x := by rintro rfl; rw [hxp] at hp'; cases hp'
    have h3 : p' ≠ p := by rintro rfl; exact hacyc m ha hp'
    refine ⟨?_, ?_, ?_⟩
    · rw [hS.parent, if_neg h2, if_neg (by omega), hp']
    · rw [hS.parent]
      by_cases h5 : p' = x
      · subst h5
        rw [if_pos rfl, hxp]
        constructor
        · intro e; injection e with e; exact absurd e hps
        · intro e; cases e
      · rw [if_neg h5, if_neg (by omega)]
    · rw [hS.children, if_neg h3]

theorem Placed.shape' {S S' : Shadow} {x p pos : Nat} {slot : Option Nat}
    (h : S.Placed S' x p pos slot) : S'.Shape := by
  rcases h with ⟨_, h, _⟩ | ⟨h, _⟩ <;> exact h.shape

end Shadow

theorem Sim.forget {r0 : Nat} {Out J : Nat → Prop} {D0 : Arena NodeData} {S : Shadow}
    {D : Arena NodeData} {slots : Slots} {f : Nat → Nat} {T : Nat → Prop} {K : Nat → Mark}
    (h : Sim r0 Out J D0 S D slots f T K) {k : Nat}
    (hk : ∀ n p, T n → S.arena.parent n = some p → S.IsSlot p →
      Arena.posIn (S.arena.children S.superRoot) p ≠ k) :
    Sim r0 Out J D0 S D (Arena.upd slots k none) f T K :=
  { h with
    root := by
      intro n p hn hp hs
      rw [Arena.upd_ne _ _ (hk n p hn hp hs)]
      exact h.root n p hn hp hs }

namespace Inv

variable {X : Ctx} {nb : Nat} {k0 : NodeKind} {Out : Nat → Prop} {D0 : Arena NodeData} {f0 : Nat → Nat} {C : Conv}
  {D : Arena NodeData} {slots : Slots} {f : Nat → Nat} {T : Nat → Prop} {K : Nat → Mark}
  {Ins Del Set hole : Nat → Prop}

theorem realT (h : Inv X nb k0 Out D0 f0 C D slots f T K Ins Del Set hole) {n : Nat}
    (hn : X.Real C.bToShadow Ins Del n) : T n := by
  rcases hn with ⟨h1, _⟩ | ⟨b, _, h1⟩
  · exact h.oldT n h1
  · exact h.insT b n h1

theorem slots_root (h : Inv X nb k0 Out D0 f0 C D slots f T K Ins Del Set hole) :
    slots 0 = some (f 0) := by
  obtain ⟨p, h1, h2, h3⟩ := h.slot0
  have := h.sim.root 0 p h.sim.rootT h1 h2
  rwa [h3] at this

theorem nextSlot_ne (h : Inv X nb k0 Out D0 f0 C D slots f T K Ins Del Set hole) :
    C.shadow.nextSlot ≠ 0 := by
  obtain ⟨p, _, h2, _⟩ := h.slot0
  have := (h.st.shape.wf.mem_iff _ _).2 h2
  rw [← h.st.shape.slots_len]
  intro e
  rw [List.length_eq_zero_iff.1 e] at this
  cases this

theorem surplus (h : Inv X nb k0 Out D0 f0 C D slots f T K Ins Del Set hole) {n pos : Nat}
    (hn : T n) (ho : (K n).2 = none) (hl : (C.shadow.arena.children n).length ≤ pos) :
    ∀ j ∈ (D.children (f n)).drop pos, Surplus X D0 f0 j := by
  intro j hj
  obtain ⟨junk, hk, hjk⟩ := h.sim.kids n hn ho
  have hjj : j ∈ junk := by
    rw [hk, List.drop_append, List.drop_of_length_le (by simpa using hl), List.nil_append] at hj
    exact List.mem_of_mem_drop hj
  exact (hjk j hjj).2

/-- Kind of a parent in the new tree. -/
theorem parentK (h : Inv X nb k0 Out D0 f0 C D slots f T K Ins Del Set hole) {pb sp : Nat}
    (hsp : C.bToShadow pb = some sp) (hel : pb = nb ∨ (kindOf (X.B.data pb)).IsElement) :
    (K sp).1.IsElement := by
  by_cases e : pb = nb
  · subst e
    rw [h.rootB] at hsp; cases hsp
    rw [h.rootK]; exact h.rootE
  · rw [h.content pb sp hsp e]
    exact hel.resolve_left e

/-- Placing the hole, for any way `R` of producing the document. -/
theorem place (hB : X.B.WF) {x b pb sp : Nat} {S' : Shadow} {slot : Option Nat}
    {R : Option Nat → Arena NodeData → Slots → Prop}
    (h : Inv X nb k0 Out D0 f0 C D slots f T K Ins Del Set (fun n => n = x))
    (hx : C.bToShadow b = some x) (hsp : C.bToShadow pb = some sp)
    (hpb : X.B.parent b = some pb)
    (hel : pb = nb ∨ (kindOf (X.B.data pb)).IsElement) (hop : X.body pb = none)
    (hS : C.shadow.Placed S' x sp (Arena.posIn (X.B.children pb) b) slot)
    (hput : ∀ occ k, k ≠ 0 → (D.children (f sp))[Arena.posIn (X.B.children pb) b]? = some occ →
      ∃ D', R (some k) D' (Arena.upd slots k (some occ)) ∧
        DPut D D' (f x) (f sp) (Arena.posIn (X.B.children pb) b) occ)
    (happ : ∃ D', R none D' slots ∧
      DApp D D' (f x) (f sp) (Arena.posIn (X.B.children pb) b)) :
    ∃ D' slots' f' T' K', R slot D' slots' ∧ (∀ m, m < C.shadow.arena.next → f' m = f m) ∧
      AtPos (Surplus X D0 f0) D (f sp) (Arena.posIn (X.B.children pb) b) slot ∧
      Inv X nb k0 Out D0 f0 ⟨S', C.bToShadow⟩ D' slots' f' T' K' Ins Del (fun n => Set n ∨ n = b)
        (fun _ => False) := by
  have hst := h.st.place hB hx hsp hpb (fun n => Iff.rfl) hS
  have hxn := h.st.hole_none x rfl
  have hTx := h.insT b x hx
  have hTsp := h.insT pb sp hsp
  have hKsp := h.parentK hsp hel
  have hOsp : (K sp).2 = none := (h.mark pb sp hsp).trans hop
  obtain ⟨p0, hp0, hs0, hpos0⟩ := h.slot0
  have hx0 : x ≠ 0 := by rintro rfl; rw [hp0] at hxn; cases hxn
  have hw := h.st.shape.wf
  have h0lt := hw.lt_of_parent _ _ hp0
  rcases hS with ⟨occ, hS, rfl⟩ | ⟨hS, rfl⟩
  · have hop : C.shadow.arena.parent occ = some sp :=
      (hw.mem_iff _ _).1 (List.mem_of_getElem? hS.at_)
    have hocc : (D.children (f sp))[Arena.posIn (X.B.children pb) b]? = some (f occ) := by
      obtain ⟨junk, hk, _⟩ := h.sim.kids sp hTsp hOsp
      have hlt := (List.getElem?_eq_some_iff.1 hS.at_).1
      rw [hk, List.getElem?_append_left (by simpa using hlt), List.getElem?_map, hS.at_]; rfl
    obtain ⟨D', hR, hD⟩ := hput (f occ) C.shadow.nextSlot h.nextSlot_ne hocc
    have hsim := h.sim.put hTx hTsp hOsp hxn hS hD
    refine ⟨D', _, f, T, K, hR, fun _ _ => rfl, .inl ⟨_, _, rfl, h.nextSlot_ne, hocc⟩, hst, hsim, h.oldT, h.insT, h.other, h.content, h.mark, h.rootB, h.rootK, h.rootE,
      h.fixed, p0, ?_, ?_, ?_⟩
    · show S'.arena.parent 0 = _
      have hne : (0 : Nat) ≠ occ := by
        rintro rfl
        rw [hp0] at hop; cases hop
        exact (h.sim.t_ns _ hTsp).2 hs0
      rw [hS.parent, if_neg (by omega), if_neg hne, if_neg (Ne.symm hx0), hp0]
    · show S'.arena.parent p0 = some S'.superRoot
      have hne : p0 ≠ occ := by
        rintro rfl
        rw [hs0] at hop; injection hop with hop
        exact (h.sim.t_ns _ hTsp).1 hop.symm
      have hne2 : p0 ≠ x := by rintro rfl; rw [hs0] at hxn; cases hxn
      rw [hS.parent, if_neg (by omega), if_neg hne, if_neg hne2, hS.super]; exact hs0
    · show Arena.posIn (S'.arena.children S'.superRoot) p0 = 0
      have := h.st.shape.super_lt
      rw [hS.super, hS.children, if_neg (by omega), if_pos rfl,
        Shadow.posIn_append ((hw.mem_iff _ _).2 hs0), hpos0]
  · obtain ⟨D', hR, hD⟩ := happ
    obtain ⟨f', hf', hsim⟩ := h.sim.app hTx hTsp hOsp hxn (by
      intro s e
      obtain ⟨t, a, e'⟩ := hKsp
      rw [e] at e'; cases e') hS hD
    refine ⟨D', _, f', _, _, hR, hf', .inr ⟨rfl, h.surplus hTsp hOsp hS.le⟩, hst, hsim, ?_, ?_, ?_, ?_, ?_, h.rootB, ?_, h.rootE, ?_, p0, ?_, ?_,
      ?_⟩
    · intro n hn; exact .inl (h.oldT n hn)
    · intro b' n hn; exact .inl (h.insT b' n hn)
    · rintro n (hn | ⟨hn, _⟩)
      · refine (h.other n hn).imp (fun e => e) (fun e => e.imp (fun e => e) fun e => ?_)
        rw [e]; simp
      · exact .inr (.inr (by simp [hn]))
    · intro b' n hn hb'
      have := h.sim.t_lt n (h.insT b' n hn)
      rw [if_neg (by omega)]
      exact h.content b' n hn hb'
    · intro b' n hn
      have := h.sim.t_lt n (h.insT b' n hn)
      rw [if_neg (by omega)]
      exact h.mark b' n hn
    · rw [if_neg (by omega)]; exact h.rootK
    · intro n hn
      rw [hf' n (Nat.lt_of_lt_of_le (h.st.old_lt n hn) h.st.nA_le)]; exact h.fixed n hn
    · show S'.arena.parent 0 = _
      rw [hS.parent, if_neg (Ne.symm hx0), if_neg (by omega), hp0]
    · show S'.arena.parent p0 = some S'.superRoot
      have hne2 : p0 ≠ x := by rintro rfl; rw [hs0] at hxn; cases hxn
      rw [hS.parent, if_neg hne2, if_neg (by omega), hS.super]; exact hs0
    · show Arena.posIn (S'.arena.children S'.superRoot) p0 = 0
      rw [hS.super, hS.children, if_neg (Ne.symm (h.sim.t_ns _ hTsp).1), hpos0]

/-- Nodes that are not below the hole have paths. -/
theorem hole_isPath {x n : Nat} (h : Inv X nb k0 Out D0 f0 C D slots f T K Ins Del Set (fun n => n = x))
    (hn : X.Real C.bToShadow Ins Del n) (ha : ¬ C.shadow.arena.Anc x n) :
    C.shadow.IsPath n (C.shadow.computePath n) := by
  refine Shadow.exists_isPath (N := fun m => X.Real C.bToShadow Ins Del m ∧
    ¬ C.shadow.arena.Anc x m) h.st.shape.wf ?_ n ⟨hn, ha⟩
  rintro m ⟨h1, h2⟩
  obtain ⟨p, hp, h3⟩ := h.st.up m h1 (by rintro rfl; exact h2 .refl)
  exact ⟨p, hp, h3.imp (fun e => ⟨e, fun e' => h2 (.step hp e')⟩) (fun e => e)⟩

/-- Insert. -/
theorem insert {step : StepFn} (hL : Lawful (f 0) step) (hB : X.B.WF) {ins : List Nat} {b pb sp : Nat}
    (h : Inv X nb k0 Out D0 f0 C D slots f T K Ins Del Set (fun _ => False))
    (hb : C.bToShadow b = none) (hbs : ¬ Set b) (hsp : C.bToShadow pb = some sp)
    (hpb : X.B.parent b = some pb)
    (hel : pb = nb ∨ (kindOf (X.B.data pb)).IsElement) (hop : X.body pb = none)
    (hcl : (kindOf (X.B.data b)).Clean)
    {cs : List InsertContent} (hcs : cs ≠ [] → (kindOf (X.B.data b)).IsElement)
    (hbody : (X.body b = none ∧ cs = []) ∨ X.body b = some (InsertContent.htmlL cs))
    (hex : extractChildren X.B
      (fun c => (Arena.upd C.bToShadow b (some C.shadow.arena.next) c).isSome || decide (c ∈ ins))
      b = cs) :
    ∃ C' P D' slots' f' T' K',
      convertOp X.B ins C (.insert b pb (Arena.posIn (X.B.children pb) b) (X.B.data b).kind) =
        .ok (C', [P]) ∧ step D slots P = .ok (D', slots') ∧
      C'.bToShadow = Arena.upd C.bToShadow b (some C.shadow.arena.next) ∧
      (∀ m, m < C.shadow.arena.next → f' m = f m) ∧ f' C.shadow.arena.next = D.next ∧
      Regular (Surplus X D0 f0) D slots P ∧
      Inv X nb k0 Out D0 f0 C' D' slots' f' T' K' (fun n => Ins n ∨ n = b) Del
        (fun n => Set n ∨ n = b) (fun _ => False) := by
  have hw := h.st.shape.wf
  let t : TData := ⟨(X.B.data b).kind, (X.B.data b).props, (X.B.data b).text⟩
  let nk := kindOf (X.B.data b)
  have hst1 := h.st.create t hb hbs
  have hspr := h.st.bts_real hsp
  have hsplt := (h.st.ns sp hspr).1
  have hbne : ∀ b' n, C.bToShadow b' = some n → b' ≠ b := by
    rintro b' n h1 rfl; rw [hb] at h1; cases h1
  obtain ⟨p0, hp0, hs0, hpos0⟩ := h.slot0
  have h0lt := hw.lt_of_parent _ _ hp0
  have hnp : ∀ m, (C.shadow.arena.newNode t).1.parent m = C.shadow.arena.parent m := fun m =>
    hw.newNode_parent t m
  have hnc : ∀ m, (C.shadow.arena.newNode t).1.children m = C.shadow.arena.children m := fun m =>
    hw.newNode_children t m
  -- the node in the document
  have hTsp := h.insT pb sp hsp
  have hel' : (D.data (f sp)).kind.IsElement := by
    rw [h.sim.data sp hTsp]; exact h.parentK hsp hel
  have hfl := h.sim.f_lt sp hTsp
  have hq0 := h.st.isPath hspr
  have hnav := h.sim.navigate hq0 hTsp
  obtain ⟨D1, hcr, hfo, _, hput, happ⟩ := hL.insert D slots (C.shadow.computePath sp) nk cs (f sp)
    h.slots_root h.sim.dwf hcl hcs hnav hel' hfl
  have hsim1 := h.sim.create t hcr (X.body b)
    (by
      intro e
      rcases hbody with ⟨_, e1⟩ | e1
      · rw [e1] at hfo; exact List.map_eq_nil_iff.1 hfo
      · rw [e] at e1; cases e1)
    (by
      intro c e
      rcases hbody with ⟨e1, _⟩ | e1
      · rw [e] at e1; cases e1
      · rw [e] at e1; cases e1; exact hfo)
  -- the state after creating the node
  have h1 : Inv X nb k0 Out D0 f0
      ⟨{ C.shadow with arena := (C.shadow.arena.newNode t).1 },
        Arena.upd C.bToShadow b (some C.shadow.arena.next)⟩ D1 slots
      (Arena.upd f C.shadow.arena.next D.next) (fun n => T n ∨ n = C.shadow.arena.next)
      (Arena.upd K C.shadow.arena.next (nk, X.body b)) (fun n => Ins n ∨ n = b) Del Set
      (fun n => n = C.shadow.arena.next) := by
    refine ⟨hst1, hsim1, ?_, ?_, ?_, ?_, ?_, ?_, ?_, h.rootE, ?_, p0, ?_, ?_, ?_⟩
    · intro n hn; exact .inl (h.oldT n hn)
    · intro b' n hn
      by_cases e : b' = b
      · subst e
        simp only [Arena.upd_same] at hn; cases hn
        exact .inr rfl
      · simp only [Arena.upd_ne _ _ e] at hn
        exact .inl (h.insT b' n hn)
    · intro n hn
      by_cases e : n = C.shadow.arena.next
      · exact .inl (.inr ⟨b, .inr rfl, by simp only [Arena.upd_same, e]⟩)
      · have hn' := hn.resolve_right e
        rw [Arena.upd_ne _ _ e]
        rcases h.other n hn' with (h2 | ⟨b', h2, h3⟩) | h2
        · exact .inl (.inl h2)
        · refine .inl (.inr ⟨b', .inl h2, ?_⟩)
          simp only [Arena.upd_ne _ _ (hbne b' n h3)]; exact h3
        · exact .inr h2
    · intro b' n hn hb'
      by_cases e : b' = b
      · subst e
        simp only [Arena.upd_same] at hn; cases hn
        rw [Arena.upd_same]
      · simp only [Arena.upd_ne _ _ e] at hn
        have := h.sim.t_lt n (h.insT b' n hn)
        rw [Arena.upd_ne _ _ (by omega)]
        exact h.content b' n hn hb'
    · intro b' n hn
      by_cases e : b' = b
      · subst e
        simp only [Arena.upd_same] at hn; cases hn
        rw [Arena.upd_same]
      · simp only [Arena.upd_ne _ _ e] at hn
        have := h.sim.t_lt n (h.insT b' n hn)
        rw [Arena.upd_ne _ _ (by omega)]
        exact h.mark b' n hn
    · simp only [Arena.upd_ne _ _ (hbne _ _ h.rootB)]; exact h.rootB
    · rw [Arena.upd_ne _ _ (by omega)]; exact h.rootK
    · intro n hn
      have := h.st.nA_le
      have := h.st.old_lt n hn
      rw [Arena.upd_ne _ _ (by omega)]; exact h.fixed n hn
    · exact (hnp 0).trans hp0
    · exact (hnp p0).trans hs0
    · show Arena.posIn ((C.shadow.arena.newNode t).1.children C.shadow.superRoot) p0 = 0
      rw [hnc]; exact hpos0
  have hx1 : (C.shadow.arena.newNode t).1.parent C.shadow.arena.next = none :=
    h1.st.hole_none _ rfl
  have hnanc : ¬ (C.shadow.arena.newNode t).1.Anc C.shadow.arena.next sp := by
    intro ha
    have := hw.anc_lt ((hw.anc_newNode t).1 ha) hsplt
    omega
  have hsp1 : Arena.upd C.bToShadow b (some C.shadow.arena.next) pb = some sp := by
    rw [Arena.upd_ne _ _ (hbne _ _ hsp)]; exact hsp
  obtain ⟨S', slot, hins, hpl⟩ := Shadow.insertAtPosition_placed
    (pos := Arena.posIn (X.B.children pb) b) hst1.shape (Nat.lt_succ_of_lt hsplt)
    (Nat.lt_succ_self _) hx1 hnanc (h.st.ns sp hspr).2.1 (Nat.ne_of_gt h.st.shape.super_lt)
  have hq1 : Shadow.IsPath ⟨(C.shadow.arena.newNode t).1, C.shadow.superRoot, C.shadow.nextSlot⟩ sp
      (C.shadow.computePath sp) := by
    refine Shadow.IsPath.congr (S := C.shadow)
      (S' := ⟨(C.shadow.arena.newNode t).1, C.shadow.superRoot, C.shadow.nextSlot⟩) rfl hq0 ?_
    intro m p' _ hp'
    exact ⟨(hnp m).trans hp', by rw [hnp], by rw [hnc]⟩
  have hq' := hpl.isPath hst1.shape hx1 (h.st.ns sp hspr).2.1 hq1
  have hcp : S'.computePath sp = C.shadow.computePath sp := hq'.computePath_eq hpl.shape'.wf
  generalize hqd : C.shadow.computePath sp = q at hnav hcp hput happ
  have hfx : Arena.upd f C.shadow.arena.next D.next C.shadow.arena.next = D.next := Arena.upd_same _ _ _
  have hfsp : Arena.upd f C.shadow.arena.next D.next sp = f sp := Arena.upd_ne _ _ (Nat.ne_of_lt hsplt)
  obtain ⟨D', slots', f', T', K', hR, hf', hat, hinv⟩ := h1.place
    (R := fun s D' slots' => step D slots (insertPatch (q ++ [Arena.posIn (X.B.children pb) b]) nk cs s)
      = .ok (D', slots')) hB (Arena.upd_same _ _ _) hsp1 hpb hel hop hpl
    (by
      intro occ k hk0 hocc
      rw [hfsp, hcr.children _ hfl] at hocc
      rw [hfx, hfsp]
      exact hput _ occ k hk0 hocc)
    (by
      rw [hfx, hfsp]
      exact happ _)
  have hat' : AtPos (Surplus X D0 f0) D (f sp) (Arena.posIn (X.B.children pb) b) slot := by
    unfold AtPos at hat ⊢
    rw [hfsp, hcr.children _ hfl] at hat
    exact hat
  refine ⟨_, _, D', slots', f', T', K', ?_, hR, rfl, ?_, ?_,
    .insert q nk cs (f sp) _ slot hcl hcs hnav hel' hfl hat', hinv⟩
  rotate_left
  · intro m hm
    rw [hf' m (Nat.lt_succ_of_lt hm), Arena.upd_ne _ _ (by omega)]
  · rw [hf' _ (Nat.lt_succ_self _), hfx]
  simp only [convertOp, Conv.parentOf, hsp, bind, Except.bind, Arena.newNode_snd]
  rw [show (C.shadow.arena.newNode ⟨(X.B.data b).kind, (X.B.data b).props, (X.B.data b).text⟩).1 =
    (C.shadow.arena.newNode t).1 from rfl, hins]
  simp only [Shadow.refWithPos, hcp, hex]
  simp only [nk, kindOf, insertPatch]
  cases (X.B.data b).kind <;> rfl

/-- The path of a node and how it is attached in the document. -/
theorem from_cases {a q : Nat}
    (h : Inv X nb k0 Out D0 f0 C D slots f T K Ins Del Set (fun _ => False))
    (ha : X.Real C.bToShadow Ins Del a) (ha0 : a ≠ 0) (hq : C.shadow.arena.parent a = some q) :
    (C.shadow.IsSlot q ∧ ∃ k, C.shadow.computePath a = [k] ∧ k ≠ 0 ∧
      k = Arena.posIn (C.shadow.arena.children C.shadow.superRoot) q ∧ slots k = some (f a) ∧
      D.parent (f a) = none) ∨
    (¬ C.shadow.IsSlot q ∧ 1 < (C.shadow.computePath a).length ∧ T q ∧
      D.parent (f a) = some (f q)) := by
  have hw := h.st.shape.wf
  have hT := h.realT ha
  have hp := h.st.isPath ha
  by_cases hs : C.shadow.IsSlot q
  · refine .inl ⟨hs, _, (Shadow.IsPath.base hq hs).computePath_eq hw, ?_, rfl,
      h.sim.root a q hT hq hs, ?_⟩
    · intro e
      obtain ⟨p0, hp0, hs0, hpos0⟩ := h.slot0
      have : q = p0 := posIn_inj ((hw.mem_iff _ _).2 hs) ((hw.mem_iff _ _).2 hs0) (e.trans hpos0.symm)
      subst this
      have e1 := h.sim.root a q hT hq hs
      rw [h.sim.root 0 q h.sim.rootT hp0 hs] at e1
      injection e1 with e1
      exact ha0 (h.sim.inj _ _ hT h.sim.rootT e1.symm)
    · refine h.sim.free a hT ha0 ?_
      intro p hp'
      rw [hq] at hp'; cases hp'; exact hs
  · refine .inr ⟨hs, ?_, h.sim.dparent hT hq hs⟩
    generalize C.shadow.computePath a = r at hp
    cases hp with
    | base hp' hs' => rw [hq] at hp'; cases hp'; exact absurd hs' hs
    | step hp' hs' h' => cases h' <;> simp

theorem anc_of_detached {S S1 : Shadow} {x n : Nat} (hw : S.arena.WF)
    (hp : ∀ m, m < S.arena.next → S1.arena.parent m = if m = x then none else S.arena.parent m)
    (ha : S1.arena.Anc x n) : n < S.arena.next → S.arena.Anc x n := by
  induction ha with
  | refl => intro _; exact .refl
  | @step n p hn _ ih =>
    intro hlt
    rw [hp n hlt] at hn
    by_cases e : n = x
    · rw [if_pos e] at hn; cases hn
    · rw [if_neg e] at hn
      exact .step hn (ih (hw.lt_of_parent _ _ hn).2)

/-- Move outside the ancestor case. -/
theorem move {step : StepFn} (hL : Lawful (f 0) step) (hB : X.B.WF) {ins : List Nat} {a b pb sp : Nat}
    (h : Inv X nb k0 Out D0 f0 C D slots f T K Ins Del Set (fun _ => False))
    (hb : C.bToShadow b = some a) (hbn : b ≠ nb) (hbs : ¬ Set b) (hsp : C.bToShadow pb = some sp)
    (hpb : X.B.parent b = some pb)
    (hel : pb = nb ∨ (kindOf (X.B.data pb)).IsElement) (hop : X.body pb = none)
    (hanc : ¬ C.shadow.arena.Anc a sp) :
    ∃ C' P D' slots' f' T' K',
      convertOp X.B ins C (.move a b pb (Arena.posIn (X.B.children pb) b)) =
        .ok (C', [P]) ∧ step D slots P = .ok (D', slots') ∧
      C'.bToShadow = C.bToShadow ∧ (∀ m, m < C.shadow.arena.next → f' m = f m) ∧
      Regular (Surplus X D0 f0) D slots P ∧
      Inv X nb k0 Out D0 f0 C' D' slots' f' T' K' Ins Del
        (fun n => Set n ∨ n = b) (fun _ => False) ∧
      ∃ to slot, P = .move (C.shadow.computePath a) to slot := by
  have hw := h.st.shape.wf
  have har := h.st.bts_real hb
  have hspr := h.st.bts_real hsp
  have hTa := h.insT b a hb
  have hTsp := h.insT pb sp hsp
  have ha0 : a ≠ 0 := by
    rintro rfl
    exact hbn (h.st.inj _ _ _ hb h.rootB)
  obtain ⟨q, hq, hqr⟩ := h.st.up a har (fun e => e)
  have hqsup : q ≠ C.shadow.superRoot := by
    rcases hqr with e | e
    · exact (h.st.ns q e).2.1
    · exact h.st.shape.slot_ne e
  have hpath := h.st.isPath har
  have hnav := h.sim.navigate hpath hTa
  obtain ⟨S1, hmd, hcase⟩ := Shadow.moveDetach_cases (p := sp) h.st.shape hq hqsup hanc
  obtain ⟨p0, hp0, hs0, hpos0⟩ := h.slot0
  have h0lt := hw.lt_of_parent _ _ hp0
  have hup : Arena.upd C.bToShadow b (some a) = C.bToShadow := by
    funext m
    by_cases e : m = b
    · subst e; rw [Arena.upd_same, hb]
    · rw [Arena.upd_ne _ _ e]
  -- the document side of the detaching
  have hfc := h.from_cases har ha0 hq
  have hfrom : (1 < (C.shadow.computePath a).length ∧ ∃ p, D.parent (f a) = some p) ∨
      ((C.shadow.computePath a).length = 1 ∧ C.shadow.computePath a ≠ [0] ∧
        D.parent (f a) = none) := by
    rcases hfc with ⟨_, k, e1, e2, _, _, e3⟩ | ⟨_, e1, _, e2⟩
    · exact .inr ⟨by rw [e1]; rfl, by rw [e1]; simpa using e2, e3⟩
    · exact .inl ⟨e1, _, e2⟩
  -- the state with the node detached
  have hmid : ∀ D1 slots1, Taken D slots (C.shadow.computePath a) (f a) D1 slots1 →
      ∃ f1 T1 K1, (∀ m, m < C.shadow.arena.next → f1 m = f m) ∧
      C.shadow.arena.next ≤ S1.arena.next ∧
      Inv X nb k0 Out D0 f0 ⟨S1, C.bToShadow⟩ D1 slots1 f1 T1 K1 Ins Del Set (fun n => n = a) ∧
      (∀ m, m < C.shadow.arena.next →
        S1.arena.parent m = if m = a then none else C.shadow.arena.parent m) := by
    intro D1 slots1 htk
    rcases hcase with ⟨hns, hS⟩ | ⟨hs, hS⟩
    · obtain ⟨_, hlen, hTq, hdp⟩ := hfc.resolve_left (fun e => hns e.1)
      have hD : D.Replaced D1 (f a) (f q) Document.emptyText ∧ slots1 = slots := by
        rcases htk with ⟨_, e1, e2⟩ | ⟨k, e1, _⟩
        · exact ⟨e2 _ hdp, e1⟩
        · rw [e1] at hlen; simp at hlen
      obtain ⟨hD, rfl⟩ := hD
      have hst := h.st.repl hb hbs hq hS
      have hsim := h.sim.repl hTa hq hns hS hD
      have hk := Struct.repl_keep hS
      refine ⟨_, _, _, ?_, by rw [hS.next]; omega,
        ⟨hst, hsim, ?_, ?_, ?_, ?_, ?_, h.rootB, ?_, h.rootE, ?_, p0, ?_, ?_, ?_⟩, hk.1⟩
      · intro m hm; exact Arena.upd_ne _ _ (Nat.ne_of_lt hm)
      · intro n hn; exact .inl (h.oldT n hn)
      · intro b' n hn; exact .inl (h.insT b' n hn)
      · intro n hn
        by_cases e : n = C.shadow.arena.next
        · exact .inr (.inr (by rw [e, Arena.upd_same]))
        · rw [Arena.upd_ne _ _ e]; exact h.other n (hn.resolve_right e)
      · intro b' n hn hb'
        have := h.sim.t_lt n (h.insT b' n hn)
        rw [Arena.upd_ne _ _ (by omega)]; exact h.content b' n hn hb'
      · intro b' n hn
        have := h.sim.t_lt n (h.insT b' n hn)
        rw [Arena.upd_ne _ _ (by omega)]; exact h.mark b' n hn
      · rw [Arena.upd_ne _ _ (by omega)]; exact h.rootK
      · intro n hn
        have := h.st.nA_le
        have := h.st.old_lt n hn
        rw [Arena.upd_ne _ _ (by omega)]; exact h.fixed n hn
      · show S1.arena.parent 0 = _
        rw [hk.1 0 h0lt.1, if_neg (Ne.symm ha0), hp0]
      · show S1.arena.parent p0 = some S1.superRoot
        have hne : p0 ≠ a := by rintro rfl; exact (h.st.ns _ har).2.2 hs0
        rw [hk.1 p0 h0lt.2, if_neg hne, hS.super]; exact hs0
      · show Arena.posIn (S1.arena.children S1.superRoot) p0 = 0
        rw [hS.super, hS.children, if_neg (Ne.symm hqsup), hpos0]
    · obtain ⟨_, k, e1, e2, e3, e4, e5⟩ := hfc.resolve_right (fun e => e.1 hs)
      have hst := h.st.unslot hb hbs hq hs hS
      have hsim0 := h.sim.unslot hTa ha0 hq hs hS
      have hk := Struct.unslot_keep hs hS
      have hD : D1 = D ∧ (slots1 = slots ∨ slots1 = Arena.upd slots k none) := by
        rcases htk with ⟨e6, _⟩ | ⟨k', e6, e7, e8⟩
        · rw [e1] at e6; simp at e6
        · rw [e1] at e6; cases e6; exact ⟨e7, e8⟩
      obtain ⟨rfl, hsl⟩ := hD
      have hsim : Sim 0 Out (Surplus X D0 f0) D0 S1 D1 slots1 f T K := by
        rcases hsl with rfl | rfl
        · exact hsim0
        · refine hsim0.forget ?_
          intro n p hn hp hsp' e
          rw [hS.super, hS.children, if_neg (Ne.symm hqsup)] at e
          have hsp'' : C.shadow.IsSlot p := by
            have : S1.arena.parent p = some S1.superRoot := hsp'
            rw [hS.parent, hS.super] at this
            by_cases e9 : p = a
            · rw [if_pos e9] at this; cases this
            · rw [if_neg e9] at this; exact this
          have e6 : p = q := posIn_inj ((hw.mem_iff _ _).2 hsp'') ((hw.mem_iff _ _).2 hs)
            (e.trans e3)
          subst e6
          rw [hS.parent] at hp
          by_cases e9 : n = a
          · rw [if_pos e9] at hp; cases hp
          · rw [if_neg e9] at hp
            have e7 := h.sim.root n p hn hp hs
            rw [← e3, e4] at e7; injection e7 with e7
            exact e9 (h.sim.inj _ _ hTa hn e7).symm
      refine ⟨f, T, K, fun _ _ => rfl, by rw [hS.next]; omega, ⟨hst, hsim, h.oldT, h.insT, h.other, h.content, h.mark, h.rootB, h.rootK, h.rootE,
        h.fixed, p0, ?_, ?_, ?_⟩, hk.1⟩
      · show S1.arena.parent 0 = _
        rw [hk.1 0 h0lt.1, if_neg (Ne.symm ha0), hp0]
      · show S1.arena.parent p0 = some S1.superRoot
        have hne : p0 ≠ a := by rintro rfl; exact (h.st.ns _ har).2.2 hs0
        rw [hk.1 p0 h0lt.2, if_neg hne, hS.super]; exact hs0
      · show Arena.posIn (S1.arena.children S1.superRoot) p0 = 0
        rw [hS.super, hS.children, if_neg (Ne.symm hqsup), hpos0]
  obtain ⟨D1, slots1, htk, hmp, hma⟩ := hL.move D slots (C.shadow.computePath a) (f a) h.slots_root
    h.sim.dwf hnav (h.sim.f_lt a hTa) hfrom
  obtain ⟨f1, T1, K1, hf1', hle1, hinv1, hpar1⟩ := hmid D1 slots1 htk
  have hf1 := hf1' a (h.st.ns a har).1
  have hanc1 : ¬ S1.arena.Anc a sp := fun e =>
    hanc (anc_of_detached hw hpar1 e (h.st.ns sp hspr).1)
  have hspr1 := hinv1.st.bts_real hsp
  have har1 := hinv1.st.bts_real hb
  have hx1 : S1.arena.parent a = none := hinv1.st.hole_none a rfl
  obtain ⟨S', slot, hmv, hpl⟩ := Shadow.moveToPosition_placed
    (pos := Arena.posIn (X.B.children pb) b) hinv1.st.shape hmd
    (hinv1.st.ns sp hspr1).1 (hinv1.st.ns a har1).1 hx1 hanc1 (hinv1.st.ns sp hspr1).2.1
    (hinv1.st.ns a har1).2.1
  have hq1 := hinv1.hole_isPath hspr1 hanc1
  have hq' := hpl.isPath hinv1.st.shape hx1 (hinv1.st.ns sp hspr1).2.1 hq1
  have hcp : S'.computePath sp = S1.computePath sp := hq'.computePath_eq hpl.shape'.wf
  -- the target, however the node was taken out
  have hfacts : ∀ D2 slots2, Taken D slots (C.shadow.computePath a) (f a) D2 slots2 →
      navigate D2 slots2 (S1.computePath sp) = .ok (f sp) ∧ (D2.data (f sp)).kind.IsElement ∧
      f sp < D2.next ∧ ¬ D2.Anc (f a) (f sp) ∧
      AtPos (Surplus X D0 f0) D2 (f sp) (Arena.posIn (X.B.children pb) b) slot := by
    intro D2 slots2 htk2
    obtain ⟨f2, T2, K2, hf2', _, hinv2, _⟩ := hmid D2 slots2 htk2
    have hTsp2 := hinv2.insT pb sp hsp
    have hTa2 := hinv2.insT b a hb
    have hOsp2 : (K2 sp).2 = none := (hinv2.mark pb sp hsp).trans hop
    rw [← hf2' sp (h.st.ns sp hspr).1, ← hf2' a (h.st.ns a har).1]
    refine ⟨hinv2.sim.navigate hq1 hTsp2, ?_, hinv2.sim.f_lt sp hTsp2, ?_, ?_⟩
    · rw [hinv2.sim.data sp hTsp2]; exact hinv2.parentK hsp hel
    · intro e; exact hanc1 (hinv2.sim.anc hTa2 hTsp2 e)
    · rcases hpl with ⟨occ, hS, rfl⟩ | ⟨hS, rfl⟩
      · refine .inl ⟨_, f2 occ, rfl, hinv2.nextSlot_ne, ?_⟩
        obtain ⟨junk, hk, _⟩ := hinv2.sim.kids sp hTsp2 hOsp2
        have hlt := (List.getElem?_eq_some_iff.1 hS.at_).1
        rw [hk, List.getElem?_append_left (by simpa using hlt), List.getElem?_map, hS.at_]; rfl
      · exact .inr ⟨rfl, hinv2.surplus hTsp2 hOsp2 hS.le⟩
  have hTsp1 := hinv1.insT pb sp hsp
  have hTa1 := hinv1.insT b a hb
  have hnav1 := hinv1.sim.navigate hq1 hTsp1
  have hkel1 : (D1.data (f1 sp)).kind.IsElement := by
    rw [hinv1.sim.data sp hTsp1]; exact hinv1.parentK hsp hel
  have hdanc : ¬ D1.Anc (f a) (f1 sp) := by
    intro e
    rw [← hf1] at e
    exact hanc1 (hinv1.sim.anc hTa1 hTsp1 e)
  obtain ⟨D', slots', f', T', K', hR, hf', _, hinv⟩ := hinv1.place
    (R := fun s D' slots' => step D slots (.move (C.shadow.computePath a)
      (S1.computePath sp ++ [Arena.posIn (X.B.children pb) b]) s) = .ok (D', slots'))
    hB hb hsp hpb hel hop hpl
    (by
      intro occ k hk0 hocc
      rw [hf1]
      exact hmp _ (f1 sp) _ occ k hk0 hnav1 hkel1 (hinv1.sim.f_lt sp hTsp1) hdanc hocc)
    (by
      rw [hf1]
      exact hma _ (f1 sp) _ hnav1 hkel1 (hinv1.sim.f_lt sp hTsp1) hdanc)
  have hna : C.shadow.isAncestor a sp = false := by
    cases e : C.shadow.isAncestor a sp with
    | false => rfl
    | true => exact absurd ((Shadow.isAncestor_iff hw).1 e).1 hanc
  refine ⟨⟨S', C.bToShadow⟩, _, D', slots', f', T', K', ?_, hR, rfl, ?_,
    .move _ (f a) _ (f sp) _ slot hnav (h.sim.f_lt a hTa) hfrom hfacts, hinv, _, _, rfl⟩
  rotate_left
  · intro m hm
    rw [hf' m (Nat.lt_of_lt_of_le hm hle1), hf1' m hm]
  simp only [convertOp, Conv.parentOf, hsp, bind, Except.bind, hna, Bool.false_eq_true, if_false,
    hmv, Shadow.refWithPos, hcp, hup, List.nil_append]

/-- Delete. -/
theorem delete {step : StepFn} (hL : Lawful (f 0) step) {ins : List Nat} {a : Nat}
    (h : Inv X nb k0 Out D0 f0 C D slots f T K Ins Del Set (fun _ => False))
    (ha : X.Old a) (hd : ¬ Del a) (hum : ∀ b, (a, b) ∉ X.pairs)
    (hleaf : ∀ n, X.Real C.bToShadow Ins Del n → C.shadow.arena.parent n ≠ some a) :
    ∃ C' P D' slots' f' T' K',
      convertOp X.B ins C (.delete a) = .ok (C', [P]) ∧ step D slots P = .ok (D', slots') ∧
      C'.bToShadow = C.bToShadow ∧ (∀ m, m < C.shadow.arena.next → f' m = f m) ∧
      Regular (Surplus X D0 f0) D slots P ∧
      Inv X nb k0 Out D0 f0 C' D' slots' f' T' K' Ins (fun n => Del n ∨ n = a) Set
        (fun _ => False) ∧
      (∀ m, m < C.shadow.arena.next →
        C'.shadow.arena.parent m = if m = a then none else C.shadow.arena.parent m) ∧
      P = .remove (C.shadow.computePath a) := by
  have hw := h.st.shape.wf
  have har : X.Real C.bToShadow Ins Del a := .inl ⟨ha, hd⟩
  have hTa := h.oldT a ha
  have ha0 : a ≠ 0 := by
    rintro rfl
    rcases h.st.bts_cases _ _ h.rootB with e | ⟨_, e⟩
    · exact hum _ e
    · have := h.st.old_lt _ ha; omega
  obtain ⟨q, hq, hqr⟩ := h.st.up a har (fun e => e)
  have hqsup : q ≠ C.shadow.superRoot := by
    rcases hqr with e | e
    · exact (h.st.ns q e).2.1
    · exact h.st.shape.slot_ne e
  have hnav := h.sim.navigate (h.st.isPath har) hTa
  obtain ⟨S1, e, hS⟩ := Shadow.detachWithPlaceholder_repl h.st.shape hq hqsup
  obtain ⟨p0, hp0, hs0, hpos0⟩ := h.slot0
  have h0lt := hw.lt_of_parent _ _ hp0
  have hst := h.st.delete ha hd hum hleaf hq hS
  have hk := Struct.repl_keep hS
  have h0 : S1.arena.parent 0 = some p0 ∧ S1.arena.parent p0 = some S1.superRoot ∧
      Arena.posIn (S1.arena.children S1.superRoot) p0 = 0 := by
    refine ⟨?_, ?_, ?_⟩
    · rw [hk.1 0 h0lt.1, if_neg (Ne.symm ha0), hp0]
    · have hne : p0 ≠ a := by rintro rfl; exact (h.st.ns _ har).2.2 hs0
      rw [hk.1 p0 h0lt.2, if_neg hne, hS.super]; exact hs0
    · rw [hS.super, hS.children, if_neg (Ne.symm hqsup), hpos0]
  have hreal : ∀ n, X.Real C.bToShadow Ins Del n →
      X.Real C.bToShadow Ins (fun n => Del n ∨ n = a) n ∨ Del n ∨ n = a := by
    intro n hn
    by_cases e : Del n ∨ n = a
    · exact .inr e
    · rcases hn with ⟨h1, h2⟩ | h1
      · exact .inl (.inl ⟨h1, e⟩)
      · exact .inl (.inr h1)
  have hconv : convertOp X.B ins C (.delete a) =
      .ok ({ C with shadow := S1 }, [.remove (C.shadow.computePath a)]) := by
    simp only [convertOp, e, bind, Except.bind]
  rcases h.from_cases har ha0 hq with ⟨hs, k, e1, e2, e3, e4, e5⟩ | ⟨hns, hlen, hTq, hdp⟩
  · obtain ⟨D', slots', e6, e7, e8⟩ := hL.removeFree D slots k (f a) h.slots_root h.sim.dwf e2 e4
      (h.sim.f_lt a hTa) e5
    have hsim0 := h.sim.replSlot hTa ha0 hq hs hS
    have hsim1 : Sim 0 Out (Surplus X D0 f0) D0 S1 D' slots f T K := by
      rcases e7 with rfl | rfl
      · exact hsim0
      · exact hsim0.docNew _
    have hsim : Sim 0 Out (Surplus X D0 f0) D0 S1 D' slots' f T K := by
      rcases e8 with rfl | rfl
      · exact hsim1
      · refine hsim1.forget ?_
        intro n p hn hp hsp' e
        rw [hS.super, hS.children, if_neg (Ne.symm hqsup)] at e
        have hnl := h.sim.t_lt n hn
        rw [hk.1 n hnl] at hp
        by_cases e9 : n = a
        · rw [if_pos e9] at hp; cases hp
        · rw [if_neg e9] at hp
          have hpl := (hw.lt_of_parent _ _ hp).2
          have hsp'' : C.shadow.IsSlot p := by
            have : S1.arena.parent p = some S1.superRoot := hsp'
            rw [hk.1 p hpl, hS.super] at this
            by_cases e9 : p = a
            · rw [if_pos e9] at this; cases this
            · rw [if_neg e9] at this; exact this
          have e6 : p = q := posIn_inj ((hw.mem_iff _ _).2 hsp'') ((hw.mem_iff _ _).2 hs)
            (e.trans e3)
          subst e6
          have e7 := h.sim.root n p hn hp hs
          rw [← e3, e4] at e7; injection e7 with e7
          exact e9 (h.sim.inj _ _ hTa hn e7).symm
    refine ⟨_, _, D', slots', f, T, K, hconv, by rw [e1]; exact e6, rfl, fun _ _ => rfl,
      by rw [e1]; exact .removeFree k (f a) e2 e4 (h.sim.f_lt a hTa) e5, ?_, hk.1, rfl⟩
    refine ⟨hst, hsim, h.oldT, h.insT, ?_, h.content, h.mark, h.rootB, h.rootK, h.rootE, h.fixed, p0, h0⟩
    intro n hn
    rcases h.other n hn with e | e | e
    · exact (hreal n e).imp (fun e => e) (fun e => .inl e)
    · exact .inr (.inl (.inl e))
    · exact .inr (.inr e)
  · obtain ⟨D', e6, hD⟩ := hL.remove D slots _ (f a) (f q) h.slots_root h.sim.dwf hnav hlen hdp
    have hsim := h.sim.repl hTa hq hns hS hD
    refine ⟨_, _, D', slots, _, _, _, hconv, e6, rfl,
      fun m hm => Arena.upd_ne _ _ (Nat.ne_of_lt hm), .remove _ (f a) (f q) hnav hlen hdp,
      ⟨hst, hsim, ?_, ?_, ?_, ?_, ?_, h.rootB, ?_, h.rootE, ?_, p0, h0⟩, hk.1, rfl⟩
    · intro n hn; exact .inl (h.oldT n hn)
    · intro b' n hn; exact .inl (h.insT b' n hn)
    · intro n hn
      by_cases e : n = C.shadow.arena.next
      · exact .inr (.inr (by rw [e, Arena.upd_same]))
      · rw [Arena.upd_ne _ _ e]
        rcases h.other n (hn.resolve_right e) with e | e | e
        · exact (hreal n e).imp (fun e => e) (fun e => .inl e)
        · exact .inr (.inl (.inl e))
        · exact .inr (.inr e)
    · intro b' n hn hb'
      have := h.sim.t_lt n (h.insT b' n hn)
      rw [Arena.upd_ne _ _ (by omega)]; exact h.content b' n hn hb'
    · intro b' n hn
      have := h.sim.t_lt n (h.insT b' n hn)
      rw [Arena.upd_ne _ _ (by omega)]; exact h.mark b' n hn
    · rw [Arena.upd_ne _ _ (by omega)]; exact h.rootK
    · intro n hn
      have := h.st.nA_le
      have := h.st.old_lt n hn
      rw [Arena.upd_ne _ _ (by omega)]; exact h.fixed n hn

end Inv
end Hotmeal
