import Verif.Lemmas.Trace

set_option autoImplicit false

/-!
# The state before the first operation, and the update phase
-/

namespace Hotmeal

/-- The matched pair of `b` already has the right parent and position. -/
def Kept (A B : Arena TData) (M : Matching) (b : Nat) : Prop :=
  ∃ a pa pb, (a, b) ∈ M.pairs ∧ A.parent a = some pa ∧ B.parent b = some pb ∧
    (pa, pb) ∈ M.pairs ∧ Arena.posIn (A.children pa) a = Arena.posIn (B.children pb) b

theorem Arena.getElem?_posIn {l : List Nat} {x : Nat} (h : x ∈ l) :
    l[Arena.posIn l x]? = some x := by
  rw [Arena.posIn, if_pos h, List.getElem?_eq_getElem (List.idxOf_lt_length_of_mem h),
    List.getElem_idxOf]

namespace Plan

variable {A B : Arena TData} {nb : Nat} {M : Matching}

theorem struct0 (h : Plan A B nb M) (D : Arena NodeData) (f : Nat → Nat) {S : Shadow}
    (hS : ShadowInit A S) : Struct (ctx A B M D f) S M.getA (fun _ => False) (fun _ => False) (Kept A B M) (fun _ => False) := by
  have hns : ∀ n, n < A.next → n ≠ S.superRoot ∧ ¬ S.IsSlot n := by
    intro n hn
    refine ⟨by rw [hS.super]; omega, ?_⟩
    simp only [Shadow.IsSlot, hS.super, hS.parent]
    intro e
    by_cases e1 : n = 0
    · rw [if_pos e1] at e; injection e with e; omega
    · rw [if_neg e1, if_neg (by omega)] at e
      have := (h.aw.lt_of_parent _ _ e).2; omega
  have hpar : ∀ n, n ≠ 0 → n < A.next → S.arena.parent n = A.parent n := by
    intro n h0 hn
    rw [hS.parent, if_neg h0, if_neg (by omega)]
  have hex : ∀ n, n ≠ 0 → n < A.next → ∃ p, A.parent n = some p := by
    intro n h0 hn
    rcases (h.areach n hn).cases' with e | ⟨p, hp, _⟩
    · exact absurd e.symm h0
    · exact ⟨p, hp⟩
  have hslot : S.IsSlot (A.next + 1) := by
    show S.arena.parent _ = some S.superRoot
    rw [hS.super, hS.parent, if_neg (by omega), if_pos rfl]
  have hs0 : S.arena.parent 0 = some (A.next + 1) := by rw [hS.parent, if_pos rfl]
  refine ⟨hS.shape, by rw [hS.next]; show A.next ≤ _; omega, ?_, ?_, fun _ e => e.elim, ?_,
    fun _ e => e.1, ?_, fun _ e => e.elim, ?_, ?_, fun _ e => e.elim, ?_, ?_, ?_⟩
  · intro a b hab; exact (h.getA a b).2 hab
  · intro b n hb; exact .inl ((h.getA n b).1 hb)
  · intro b b' n h1 h2
    exact h.fn1 ((h.getA n b).1 h1) ((h.getA n b').1 h2)
  · intro a b hab; exact h.pair_old hab
  · rintro n (⟨h1, _⟩ | ⟨b, h1, _⟩)
    · have h1 : n < A.next := h1.1
      exact ⟨by rw [hS.next]; omega, hns n h1⟩
    · exact h1.elim
  · rintro n (⟨ho, _⟩ | ⟨b, h1, _⟩) _
    · have h1 : n < A.next := ho.1
      by_cases e : n = 0
      · subst e; exact ⟨_, hs0, .inr hslot⟩
      · obtain ⟨p, hp⟩ := hex n e h1
        exact ⟨p, (hpar n e h1).trans hp, .inl (.inl ⟨(h.old_parent ho hp).1, fun e => e⟩)⟩
    · exact h1.elim
  · rintro b ⟨a, pa, pb, h1, h2, h3, h4, h5⟩
    have ha0 : a ≠ 0 := by rintro rfl; rw [h.a0] at h2; cases h2
    have hlt := h.aw.lt_of_parent _ _ h2
    refine ⟨pb, a, pa, h3, (h.getA a b).2 h1, (h.getA pa pb).2 h4, (hpar a ha0 hlt.1).trans h2, ?_⟩
    have hch : S.arena.children pa = A.children pa := by
      rw [hS.children, if_neg (by omega), if_neg (by omega)]
    show (S.arena.children pa)[Arena.posIn (B.children pb) b]? = some a
    rw [hch, ← h5]
    exact Arena.getElem?_posIn ((h.aw.mem_iff _ _).2 h2)
  · intro n h1 _ h3
    have h1 : n < A.next := h1.1
    have hn0 : n ≠ 0 := by rintro rfl; exact h3 nb h.root
    obtain ⟨p, hp⟩ := hex n hn0 h1
    exact ⟨p, (hpar n hn0 h1).trans hp, .inr hp⟩
  · rintro n p (⟨h1, _⟩ | ⟨b, h1, _⟩) hp
    · have h1 : n < A.next := h1.1
      by_cases e : n = 0
      · subst e; rw [hs0] at hp; cases hp; exact .inl hslot
      · rw [hpar n e h1] at hp; exact .inr (.inl hp)
    · exact h1.elim

end Plan

/-! ### The document at the start -/

/-- The document `D` below its body `db` looks like the old tree `A`, up to empty text nodes at the
end of child lists; `f` gives the document node of each tree node. Nothing is said about the content
of opaque elements. -/
structure DocRel (A : Arena TData) (D : Arena NodeData) (db : Nat) (f : Nat → Nat) : Prop where
  wf : D.WF
  db_lt : db < D.next
  root : f 0 = db
  kids : ∀ n, Plan.Old A n → (A.data n).props.isOpaque = false → ∃ junk, D.children (f n) = (A.children n).map f ++ junk ∧
    ∀ j ∈ junk, (D.data j).kind = .text []
  data : ∀ n, Plan.Old A n → n ≠ 0 → (D.data (f n)).kind = kindOf (A.data n)
  elem : (D.data db).kind.IsElement
  clean : (D.data db).kind.Clean
  leaf : ∀ n s, (D.data n).kind = .text s → D.children n = []

/-- Nodes of `D` outside the subtree of `db`. -/
def Outside (D : Arena NodeData) (db n : Nat) : Prop := n < D.next ∧ ¬ D.Anc db n

namespace DocRel

variable {A : Arena TData} {D : Arena NodeData} {db : Nat} {f : Nat → Nat}

theorem parent (h : DocRel A D db f) (hw : A.WF) {n p : Nat} (hn : Plan.Old A n)
    (hp : A.parent n = some p) (hr : A.Anc 0 p) : D.parent (f n) = some (f p) := by
  have ho : Plan.Old A p := ⟨(hw.lt_of_parent _ _ hp).2, fun e => hn.2 (e.of_parent hw hp)⟩
  have hc : (A.data p).props.isOpaque = false := by
    cases e : (A.data p).props.isOpaque with
    | false => rfl
    | true => exact absurd (InsideOpaque.of_opaque hw hp hr e) hn.2
  obtain ⟨junk, hk, _⟩ := h.kids p ho hc
  refine (h.wf.mem_iff _ _).1 ?_
  rw [hk]
  exact List.mem_append_left _ (List.mem_map.2 ⟨n, (hw.mem_iff _ _).2 hp, rfl⟩)

theorem old_parent (hw : A.WF) {n p : Nat} (hn : Plan.Old A n) (hp : A.parent n = some p) :
    Plan.Old A p := ⟨(hw.lt_of_parent _ _ hp).2, fun e => hn.2 (e.of_parent hw hp)⟩

theorem anc (h : DocRel A D db f) (hw : A.WF) {n : Nat} (hn : A.Anc 0 n) (ho : Plan.Old A n) :
    D.Anc db (f n) := by
  induction hn with
  | refl => rw [h.root]; exact .refl
  | step hp ha ih => exact .step (h.parent hw ho hp ha) (ih (old_parent hw ho hp))

theorem lt (h : DocRel A D db f) (hw : A.WF) {n : Nat} (hn : A.Anc 0 n) (ho : Plan.Old A n) :
    f n < D.next := by
  rcases hn.cases' with e | ⟨p, hp, ha⟩
  · rw [← e, h.root]; exact h.db_lt
  · exact (h.wf.lt_of_parent _ _ (h.parent hw ho hp ha)).1

theorem inj (h : DocRel A D db f) (hw : A.WF) {n m : Nat} (hn : A.Anc 0 n) (hm : A.Anc 0 m)
    (hno : Plan.Old A n) (hmo : Plan.Old A m) (e : f n = f m) : n = m := by
  induction hn generalizing m with
  | refl =>
    rcases hm.cases' with e' | ⟨p, hp, ha⟩
    · exact e'
    · exfalso
      have h1 := h.parent hw hmo hp ha
      rw [← e, h.root] at h1
      have h2 := h.anc hw ha (old_parent hw hmo hp)
      exact h.wf.self_parent_ne h1 (h.wf.anc_antisymm (.step h1 .refl) h2)
  | @step n p hp ha ih =>
    rcases hm.cases' with e' | ⟨q, hq, ha'⟩
    · exfalso
      have h1 := h.parent hw hno hp ha
      rw [e, ← e', h.root] at h1
      have h2 := h.anc hw ha (old_parent hw hno hp)
      exact h.wf.self_parent_ne h1 (h.wf.anc_antisymm (.step h1 .refl) h2)
    · have h1 := h.parent hw hno hp ha
      rw [e, h.parent hw hmo hq ha'] at h1
      injection h1 with h1
      have h2 := ih ha' (old_parent hw hno hp) (old_parent hw hmo hq) h1.symm
      subst h2
      have hc : (A.data p).props.isOpaque = false := by
        cases e : (A.data p).props.isOpaque with
        | false => rfl
        | true => exact absurd (InsideOpaque.of_opaque hw hp ha e) hno.2
      obtain ⟨junk, hk, _⟩ := h.kids p (old_parent hw hno hp) hc
      have hnd : ((A.children p).map f).Nodup := by
        have := h.wf.nodup (f p)
        rw [hk] at this
        exact (List.nodup_append.1 this).1
      have hmn := (hw.mem_iff _ _).2 hp
      have hmm := (hw.mem_iff _ _).2 hq
      have i1 := Arena.getElem?_posIn hmn
      have i2 := Arena.getElem?_posIn hmm
      have j1 : ((A.children p).map f)[Arena.posIn (A.children p) n]? = some (f n) := by
        rw [List.getElem?_map, i1]; rfl
      have j2 : ((A.children p).map f)[Arena.posIn (A.children p) m]? = some (f n) := by
        rw [List.getElem?_map, i2, e]; rfl
      exact posIn_inj hmn hmm (List.nodup_getElem?_inj hnd j1 j2)

end DocRel

namespace Plan

variable {A B : Arena TData} {nb : Nat} {M : Matching} {D : Arena NodeData} {db : Nat}
  {f : Nat → Nat} {slots : Slots}

/-- What is known about the document nodes at the start. -/
def mark0 (A : Arena TData) (D : Arena NodeData) (f : Nat → Nat) (n : Nat) : Mark :=
  ((D.data (f n)).kind, if (A.data n).props.isOpaque = true then some (D.forest (f n)) else none)

theorem mark0_none {n : Nat} : (mark0 A D f n).2 = none ↔ (A.data n).props.isOpaque = false := by
  simp only [mark0]
  split <;> simp_all

theorem sim0 (h : Plan A B nb M) {S : Shadow} (hS : ShadowInit A S) (hd : DocRel A D db f)
    (hs : slots 0 = some db) :
    Sim 0 (Outside D db) (Surplus (ctx A B M D f) D f) D S D slots f (Old A) (mark0 A D f) := by
  have hst := h.struct0 D f hS
  have hreal : ∀ n, Old A n → (ctx A B M D f).Real M.getA (fun _ => False) (fun _ => False) n :=
    fun n hn => .inl ⟨hn, fun e => e⟩
  have hch : ∀ n, n < A.next → S.arena.children n = A.children n := by
    intro n hn; rw [hS.children, if_neg (by omega), if_neg (by omega)]
  have hs0 : S.arena.parent 0 = some (A.next + 1) := by rw [hS.parent, if_pos rfl]
  have hslot : S.IsSlot (A.next + 1) := by
    show S.arena.parent _ = some S.superRoot
    rw [hS.super, hS.parent, if_neg (by omega), if_pos rfl]
  have hpar : ∀ n, n ≠ 0 → n < A.next → S.arena.parent n = A.parent n := by
    intro n h0 hn
    rw [hS.parent, if_neg h0, if_neg (by omega)]
  have hroot : ∀ n p, Old A n → S.arena.parent n = some p → S.IsSlot p → n = 0 := by
    intro n p hn hp hsl
    refine Classical.byContradiction fun e => ?_
    rw [hpar n e hn.1] at hp
    exact (hst.ns p (hreal p (h.old_parent hn hp).1)).2.2 hsl
  refine ⟨hS.shape, hd.wf, ?_, ?_, ?_, ?_, ?_, ?_, ?_, ?_, ?_, ?_, h.old_zero, ⟨_, hs0, hslot⟩, ?_,
    fun _ _ => rfl, Nat.le_refl _, fun n hn => hn.1, ?_, ?_, hd.leaf, fun n _ => ⟨rfl, rfl, rfl⟩⟩
  · intro n hn; have := hn.1; rw [hS.next]; omega
  · intro n hn; exact (hst.ns n (hreal n hn)).2
  · intro n hn; exact hd.lt h.aw (h.areach n hn.1) hn
  · intro n m hn hm e; exact hd.inj h.aw (h.areach n hn.1) (h.areach m hm.1) hn hm e
  · intro n c hn ho hc
    rw [hch n hn.1] at hc
    have hcp := (h.aw.mem_iff _ _).1 hc
    refine ⟨(h.aw.lt_of_parent _ _ hcp).1, fun e => ?_⟩
    rcases (InsideOpaque.parent_iff h.aw hcp (h.areach n hn.1)).1 e with e | e
    · exact hn.2 e
    · rw [mark0_none.1 ho] at e; cases e
  · intro n p hn hp
    by_cases e : n = 0
    · subst e; rw [hs0] at hp; cases hp; exact .inr hslot
    · rw [hpar n e hn.1] at hp
      obtain ⟨h1, h2⟩ := h.old_parent hn hp
      exact .inl ⟨h1, mark0_none.2 h2⟩
  · intro n hn ho
    rw [hch n hn.1]
    obtain ⟨junk, hk, hj⟩ := hd.kids n hn (mark0_none.1 ho)
    refine ⟨junk, hk, fun j hjm => ⟨hj j hjm, n, ⟨hn, mark0_none.1 ho⟩, ?_, ?_⟩⟩
    · rw [hk]; exact List.mem_append_right _ hjm
    · rintro m hm rfl
      have hjc : f m ∈ D.children (f n) := by rw [hk]; exact List.mem_append_right _ hjm
      have hjp := (hd.wf.mem_iff _ _).1 hjc
      rcases (h.areach m hm.1).cases' with e | ⟨q, hq, ha⟩
      · subst e
        have h1 := hd.anc h.aw (h.areach n hn.1) hn
        rw [hd.root] at hjp
        exact hd.wf.self_parent_ne hjp (hd.wf.anc_antisymm (.step hjp .refl) h1)
      · have h1 := hd.parent h.aw hm hq ha
        rw [hjp] at h1
        injection h1 with h1
        have := hd.inj h.aw (h.areach n hn.1) ha hn (h.old_parent hm hq).1 h1
        subst this
        have hnd := hd.wf.nodup (f n)
        rw [hk] at hnd
        exact (List.nodup_append.1 hnd).2.2 (f m)
          (List.mem_map.2 ⟨m, (h.aw.mem_iff _ _).2 hq, rfl⟩) (f m) hjm rfl
  · intro n c hn hc
    simp only [mark0] at hc
    split at hc
    · injection hc
    · cases hc
  · intro n p hn hp hsl
    have := hroot n p hn hp hsl
    subst this
    rw [hs0] at hp; cases hp
    have : S.arena.children S.superRoot = [A.next + 1] := by
      rw [hS.super, hS.children, if_neg (by omega), if_pos rfl]
    rw [this]
    simp only [Arena.posIn, List.mem_singleton, if_true, List.idxOf_cons_self]
    rw [hs, hd.root]
  · intro n hn hn0 hall
    obtain ⟨p, hp, _⟩ := hst.up n (hreal n hn) (fun e => e)
    exact absurd (hroot n p hn hp (hall p hp)) hn0
  · intro q hq
    rw [hd.root] at hq
    refine ⟨(hd.wf.lt_of_parent _ _ hq).2, fun ha => ?_⟩
    exact hd.wf.self_parent_ne hq (hd.wf.anc_antisymm (.step hq .refl) ha)
  · rintro n q ⟨h1, h2⟩ hq
    exact ⟨(hd.wf.lt_of_parent _ _ hq).2, fun ha => h2 (.step hq ha)⟩
  · intro n hn ho
    exact ho.2 (hd.anc h.aw (h.areach n hn.1) hn)

/-! ### Updates -/

/-- Kind of the patched root. The attributes of the old root are not compared; they are replaced
only if the new root has attributes. -/
def rootKind (k : NodeKind) (new : Attrs) : NodeKind := match k with
  | .element tag attrs => .element tag (if new = [] then attrs else new)
  | k => k

/-- Kind of the patched node of the pair `(a, b)`. -/
def target (B : Arena TData) (nb : Nat) (kr : NodeKind) (b : Nat) : NodeKind :=
  if b = nb then rootKind kr (B.data nb).props else kindOf (B.data b)

theorem toChanges_names (old : Attrs) (od forced : Bool) (new : Attrs) :
    (toChanges (old.diffLoop od forced new)).map PropChange.name = new.keys.map PropKey.attr := by
  induction new generalizing forced with
  | nil => rfl
  | cons kv rest ih =>
    obtain ⟨k, v⟩ := kv
    simp only [Attrs.diffLoop, toChanges, List.map_cons, Attrs.keys] at ih ⊢
    rw [ih]

theorem toChanges_ok (old new : Attrs) (hn : new.keys.Nodup) :
    ((toChanges (old.diff new)).map PropChange.name).Nodup ∧
      PropKey.text ∉ (toChanges (old.diff new)).map PropChange.name := by
  simp only [Attrs.diff, toChanges_names]
  constructor
  · rw [List.Nodup, List.pairwise_map]
    exact hn.imp fun h e => h (by injection e)
  · simp

/-- Changes against an empty list give the new attributes whatever the element has. -/
theorem rebuild_diff_nil (x new : Attrs) : rebuildAttrs x (toChanges (Attrs.diff [] new)) = new := by
  have key : ∀ od forced, rebuildAttrs x (toChanges (Attrs.diffLoop [] od forced new)) = new := by
    induction new with
    | nil => intros; rfl
    | cons kv rest ih =>
      intro od forced
      obtain ⟨k, v⟩ := kv
      have := ih od (forced || (od && decide (Attrs.find [] k = some v) && !forced))
      simp only [toChanges, rebuildAttrs] at this
      simp only [Attrs.diffLoop, toChanges, List.map_cons, rebuildAttrs, List.filterMap_cons]
      rw [this]
      simp [Attrs.find]
  exact key _ _

theorem propOps_eq {H : Type} (TA TB : DiffTree H) (a b : Nat) :
    propOps TA TB a b = if attrUpdateEmitted (TA.props a) (TB.props b) = true then
      [.updateProps a b ((TA.props a).diff (TB.props b))] else [] := by
  unfold propOps attrUpdateEmitted
  by_cases h : ((TA.props a).isEmpty && (TB.props b).isEmpty) = true
  · simp [h]
  · have h' : ((TA.props a).isEmpty && (TB.props b).isEmpty) = false := by simpa using h
    simp only [h', Bool.false_eq_true, if_false, Bool.not_false, Bool.true_and, Bool.or_eq_true,
      decide_eq_true_eq]

theorem emitted_nil (new : Attrs) : attrUpdateEmitted [] new = true ↔ new ≠ [] := by
  cases new with
  | nil => decide
  | cons kv rest =>
    obtain ⟨k, v⟩ := kv
    simp [attrUpdateEmitted, Attrs.diff, Attrs.diffLoop, PropFinal.isDifferent, Attrs.find]

/-- The kinds of the document nodes still to be updated. -/
def PreK (A : Arena TData) (kr : NodeKind) (K : Nat → Mark) (a : Nat) : Prop :=
  (K a).1 = if a = 0 then kr else kindOf (A.data a)

theorem update_one {H : Type} {hashNode : HKind → Option Str → List H → H} (h : Plan A B nb M)
    {step : StepFn} {root : Nat} (hL : Lawful root step) {J : Nat → Prop} {ins : List Nat}
    {kr : NodeKind} (hkr : kr.IsElement)
    (hkc : kr.Clean) {w : World} {Ins Del Set : Nat → Prop} {bts : Nat → Option Nat}
    {Out J' : Nat → Prop} {D0 : Arena NodeData} {f0 : Nat → Nat} {T : Nat → Prop} {K : Nat → Mark}
    {a b : Nat} (hab : (a, b) ∈ M.pairs) (hTa : T a)
    (hst : Struct (ctx A B M D0 f0) w.C.shadow bts Ins Del Set (fun _ => False))
    (hsim : Sim 0 Out J' D0 w.C.shadow w.D w.slots f T K) (hs0 : w.slots 0 = some root)
    (hK : PreK A kr K a) :
    ∃ ps D' K', Trace B ins step f J w
        (textOps (DiffTree.ofArena hashNode A 0) (DiffTree.ofArena hashNode B nb) a b ++
          propOps (DiffTree.ofArena hashNode A 0) (DiffTree.ofArena hashNode B nb) a b) ps
        ⟨w.C, D', w.slots, w.c⟩ ∧
      Sim 0 Out J' D0 w.C.shadow D' w.slots f T K' ∧ K' a = (target B nb kr b, (K a).2) ∧
      ∀ m, m ≠ a → K' m = K m := by
  have har := hst.matched_real hab
  have hnav := hsim.navigate (hst.isPath har) hTa
  have hkd := hsim.data a hTa
  have hA := h.at_ a (h.lt a b hab).1
  have hB := h.bt b (h.lt a b hab).2
  have hkind := h.kind a b hab
  have hroot : a = 0 ↔ b = nb := by
    constructor
    · rintro rfl; exact h.fn1 hab h.root
    · rintro rfl; exact h.fn2 hab h.root
  -- nothing emitted
  have hnone : (K a).1 = target B nb kr b → ∃ ps D' K', Trace B ins step f J w [] ps
        ⟨w.C, D', w.slots, w.c⟩ ∧
      Sim 0 Out J' D0 w.C.shadow D' w.slots f T K' ∧ K' a = (target B nb kr b, (K a).2) ∧
      ∀ m, m ≠ a → K' m = K m := fun e => ⟨[], w.D, K, .nil _, hsim, by rw [← e], fun _ _ => rfl⟩
  -- attributes emitted
  have hattr : ∀ tag attrs new changes, (K a).1 = .element tag attrs → attrs.keys.Nodup →
      (B.data b).props = new → changes = (A.data a).props.diff new →
      rebuildAttrs attrs (toChanges changes) = new → target B nb kr b = .element tag new →
      ∃ ps D' K', Trace B ins step f J w [.updateProps a b changes] ps ⟨w.C, D', w.slots, w.c⟩ ∧
        Sim 0 Out J' D0 w.C.shadow D' w.slots f T K' ∧ K' a = (target B nb kr b, (K a).2) ∧
        ∀ m, m ≠ a → K' m = K m := by
    intro tag attrs new changes e1 e2 e3 e4 e5 e6
    rw [e1] at hkd
    rcases hdat : w.D.data (f a) with ⟨k, ns⟩
    rw [hdat] at hkd
    simp only at hkd; subst hkd
    have hnk : new.keys.Nodup := by
      have := hB.2
      obtain ⟨tag', ns', hk'⟩ : ∃ t n, (B.data b).kind = .element t n := by
        by_cases hb : b = nb
        · obtain ⟨t, at', he⟩ := h.relem
          rw [← hb] at he
          simp only [kindOf] at he
          split at he <;> simp_all
        · simp only [target, if_neg hb] at e6
          simp only [kindOf] at e6
          split at e6 <;> simp_all
      rw [← e3]
      simpa [kindOf, hk', NodeKind.Clean] using this
    have hok := toChanges_ok (A.data a).props new hnk
    have hs := hL.updateProps w.D w.slots _ (f a) tag attrs ns (toChanges changes) hs0 hnav hdat e2
      (by rw [e4]; exact hok.1) (by rw [e4]; exact hok.2)
    have hsim' := hsim.setData hTa ⟨.element tag (rebuildAttrs attrs (toChanges changes)), ns⟩
      (by intro s e; cases e)
    refine ⟨[.updateProps (w.C.shadow.computePath a) (toChanges changes)],
      w.D.setData (f a) ⟨.element tag (rebuildAttrs attrs (toChanges changes)), ns⟩, _,
      .single rfl hs ⟨rfl, _, rfl, hnav⟩ (.updateProps _ (f a) tag attrs ns _ hnav hdat e2
        (by rw [e4]; exact hok.1) (by rw [e4]; exact hok.2)), hsim', ?_, ?_⟩
    · rw [Arena.upd_same, e5, e6]
    · intro m hm; exact Arena.upd_ne _ _ hm
  obtain ⟨⟨kA, nsA⟩, hAnd, hAt⟩ := hA.1
  obtain ⟨⟨kB, nsB⟩, hBnd, hBt⟩ := hB.1
  have hkA : kindOf (A.data a) = kA := by rw [hAt]; exact kindOf_tdataOf hAnd
  have hkB : kindOf (B.data b) = kB := by rw [hBt]; exact kindOf_tdataOf hBnd
  rw [propOps_eq]
  simp only [textOps, DiffTree.ofArena]
  by_cases ha0 : a = 0
  · -- the roots
    have hb0 := hroot.1 ha0
    have hKr : (K a).1 = kr := by rw [hK, if_pos ha0]
    obtain ⟨tag, attrs, rfl⟩ := hkr
    have hp0 : (A.data a).props = [] := by rw [ha0]; exact h.rootProps
    have htgt : target B nb (.element tag attrs) b =
        .element tag (if (B.data b).props = [] then attrs else (B.data b).props) := by
      rw [target, if_pos hb0, rootKind, hb0]
    obtain ⟨tB, aB, hel⟩ : kB.IsElement := by rw [← hkB, hb0]; exact h.relem
    have htB : (B.data b).text = none := by rw [hBt]; simp [tdataOf, hel]
    have htA : (A.data a).text = none := by
      rw [hAt, hBt] at hkind
      cases kA <;> simp_all [tdataOf]
    simp only [htA, htB, if_true, List.nil_append, hp0]
    by_cases hnew : (B.data b).props = []
    · rw [if_neg (by rw [emitted_nil]; exact fun e => e hnew)]
      refine hnone ?_
      rw [hKr, htgt, if_pos hnew]
    · rw [if_pos ((emitted_nil _).2 hnew)]
      refine hattr tag attrs (B.data b).props _ hKr hkc rfl (by rw [hp0]) (rebuild_diff_nil _ _) ?_
      rw [htgt, if_neg hnew]
  · have hb0 : b ≠ nb := fun e => ha0 (hroot.2 e)
    have hKa : (K a).1 = kA := by rw [hK, if_neg ha0, hkA]
    have htgt : target B nb kr b = kB := by simp only [target, if_neg hb0, hkB]
    rw [hAt, hBt] at hkind
    -- text updates
    have htext : ∀ old new, (K a).1 = .text old → target B nb kr b = .text new →
        ∃ ps D' K', Trace B ins step f J w [.setText a b new] ps ⟨w.C, D', w.slots, w.c⟩ ∧
          Sim 0 Out J' D0 w.C.shadow D' w.slots f T K' ∧ K' a = (target B nb kr b, (K a).2) ∧
          ∀ m, m ≠ a → K' m = K m := by
      intro old new e1 e2
      rw [e1] at hkd
      rcases hdat : w.D.data (f a) with ⟨k, ns⟩
      rw [hdat] at hkd
      simp only at hkd; subst hkd
      have hs := hL.setText_text w.D w.slots _ (f a) old ns new hs0 hnav hdat
      refine ⟨[.setText (w.C.shadow.computePath a) new], w.D.setData (f a) ⟨.text new, ns⟩, _,
        .single rfl hs ⟨rfl, _, rfl, hnav⟩ (.setText _ (f a) old ns _ hnav (.inl hdat)),
        hsim.setData hTa ⟨.text new, ns⟩ (fun s _ => ⟨old, e1⟩), ?_, ?_⟩
      · rw [Arena.upd_same, e2]
      · intro m hm; exact Arena.upd_ne _ _ hm
    have hcomm : ∀ old new, (K a).1 = .comment old → target B nb kr b = .comment new →
        ∃ ps D' K', Trace B ins step f J w [.setText a b new] ps ⟨w.C, D', w.slots, w.c⟩ ∧
          Sim 0 Out J' D0 w.C.shadow D' w.slots f T K' ∧ K' a = (target B nb kr b, (K a).2) ∧
          ∀ m, m ≠ a → K' m = K m := by
      intro old new e1 e2
      rw [e1] at hkd
      rcases hdat : w.D.data (f a) with ⟨k, ns⟩
      rw [hdat] at hkd
      simp only at hkd; subst hkd
      have hs := hL.setText_comment w.D w.slots _ (f a) old ns new hs0 hnav hdat
      refine ⟨[.setText (w.C.shadow.computePath a) new], w.D.setData (f a) ⟨.comment new, ns⟩, _,
        .single rfl hs ⟨rfl, _, rfl, hnav⟩ (.setText _ (f a) old ns _ hnav (.inr hdat)),
        hsim.setData hTa ⟨.comment new, ns⟩ (fun s e => by cases e), ?_, ?_⟩
      · rw [Arena.upd_same, e2]
      · intro m hm; exact Arena.upd_ne _ _ hm
    cases kA with
    | document => exact absurd rfl hAnd
    | element tA aA =>
      cases kB with
      | document => exact absurd rfl hBnd
      | text _ => simp [tdataOf] at hkind
      | comment _ => simp [tdataOf] at hkind
      | element tB aB =>
        simp only [tdataOf, HKind.element.injEq] at hkind
        obtain ⟨rfl, _⟩ := hkind
        have hpA : (A.data a).props = aA := by rw [hAt]; rfl
        have hpB : (B.data b).props = aB := by rw [hBt]; rfl
        have htA : (A.data a).text = none := by rw [hAt]; rfl
        have htB : (B.data b).text = none := by rw [hBt]; rfl
        have huA : aA.Unique := by have := hA.2; rw [hkA] at this; exact this
        have huB : aB.Unique := by have := hB.2; rw [hkB] at this; exact this
        simp only [htA, htB, if_true, List.nil_append, hpA, hpB]
        by_cases he : aA = aB
        · rw [if_neg (by rw [C13_attr_update_iff_differ _ _ huA huB]; exact fun e => e he)]
          exact hnone (by rw [hKa, htgt, he])
        · rw [if_pos ((C13_attr_update_iff_differ _ _ huA huB).2 he)]
          exact hattr tA aA aB _ hKa huA hpB (by rw [hpA]) (C14_update_reproduces_target _ _) htgt
    | text sA =>
      cases kB with
      | document => exact absurd rfl hBnd
      | element _ _ => simp [tdataOf] at hkind
      | comment _ => simp [tdataOf] at hkind
      | text sB =>
        have hpA : (A.data a).props = [] := by rw [hAt]; rfl
        have hpB : (B.data b).props = [] := by rw [hBt]; rfl
        have htA : (A.data a).text = some sA := by rw [hAt]; rfl
        have htB : (B.data b).text = some sB := by rw [hBt]; rfl
        simp only [htA, htB, hpA, hpB]
        rw [if_neg (by decide : ¬ attrUpdateEmitted [] [] = true), List.append_nil]
        by_cases he : sA = sB
        · rw [if_pos (by rw [he])]
          exact hnone (by rw [hKa, htgt, he])
        · rw [if_neg (by simpa using he)]
          exact htext sA sB hKa htgt
    | comment sA =>
      cases kB with
      | document => exact absurd rfl hBnd
      | element _ _ => simp [tdataOf] at hkind
      | text _ => simp [tdataOf] at hkind
      | comment sB =>
        have hpA : (A.data a).props = [] := by rw [hAt]; rfl
        have hpB : (B.data b).props = [] := by rw [hBt]; rfl
        have htA : (A.data a).text = some sA := by rw [hAt]; rfl
        have htB : (B.data b).text = some sB := by rw [hBt]; rfl
        simp only [htA, htB, hpA, hpB]
        rw [if_neg (by decide : ¬ attrUpdateEmitted [] [] = true), List.append_nil]
        by_cases he : sA = sB
        · rw [if_pos (by rw [he])]
          exact hnone (by rw [hKa, htgt, he])
        · rw [if_neg (by simpa using he)]
          exact hcomm sA sB hKa htgt

/-- The update phase. -/
theorem updates {H : Type} {hashNode : HKind → Option Str → List H → H} (h : Plan A B nb M)
    {step : StepFn} {root : Nat} (hL : Lawful root step) {J : Nat → Prop} {ins : List Nat}
    {kr : NodeKind} (hkr : kr.IsElement)
    (hkc : kr.Clean) {C : Conv} {slots : Slots} {c : Nat → Option Nat} {Ins Del Set : Nat → Prop}
    {bts : Nat → Option Nat} {Out J' : Nat → Prop} {D0 : Arena NodeData} {f0 : Nat → Nat} {T : Nat → Prop}
    (hst : Struct (ctx A B M D0 f0) C.shadow bts Ins Del Set (fun _ => False))
    (hs0 : slots 0 = some root) :
    ∀ (l : List (Nat × Nat)) (D : Arena NodeData) (K : Nat → Mark),
      (∀ p ∈ l, p ∈ M.pairs ∧ T p.1 ∧ PreK A kr K p.1) → (l.map Prod.fst).Nodup →
      Sim 0 Out J' D0 C.shadow D slots f T K →
    ∃ ps D' K', Trace B ins step f J ⟨C, D, slots, c⟩
        (l.flatMap fun p =>
          textOps (DiffTree.ofArena hashNode A 0) (DiffTree.ofArena hashNode B nb) p.1 p.2 ++
          propOps (DiffTree.ofArena hashNode A 0) (DiffTree.ofArena hashNode B nb) p.1 p.2) ps
        ⟨C, D', slots, c⟩ ∧
      Sim 0 Out J' D0 C.shadow D' slots f T K' ∧ (∀ p ∈ l, K' p.1 = (target B nb kr p.2, (K p.1).2)) ∧
      ∀ m, m ∉ l.map Prod.fst → K' m = K m := by
  intro l
  induction l with
  | nil =>
    intro D K _ _ hsim
    exact ⟨[], D, K, .nil _, hsim, by simp, fun _ _ => rfl⟩
  | cons p l ih =>
    intro D K hall hnd hsim
    obtain ⟨a, b⟩ := p
    simp only [List.map_cons, List.nodup_cons] at hnd
    obtain ⟨hab, hTa, hK⟩ := hall (a, b) (by simp)
    obtain ⟨ps, D1, K1, ht, hsim1, hKa, hKo⟩ := h.update_one (hashNode := hashNode) hL (ins := ins)
      hkr hkc (w := ⟨C, D, slots, c⟩) hab hTa hst hsim hs0 hK
    obtain ⟨ps', D2, K2, ht', hsim2, hK2, hKo2⟩ := ih D1 K1 (by
      intro q hq
      obtain ⟨h1, h2, h3⟩ := hall q (List.mem_cons_of_mem _ hq)
      refine ⟨h1, h2, ?_⟩
      have hne : q.1 ≠ a := by
        intro e; exact hnd.1 (List.mem_map.2 ⟨q, hq, e⟩)
      rw [PreK, hKo _ hne]; exact h3) hnd.2 hsim1
    refine ⟨ps ++ ps', D2, K2, ?_, hsim2, ?_, ?_⟩
    · rw [List.flatMap_cons]; exact ht.append ht'
    · intro q hq
      rcases List.mem_cons.1 hq with rfl | hq
      · rw [hKo2 _ hnd.1, hKa]
      · rw [hK2 q hq, hKo q.1 fun e => hnd.1 (List.mem_map.2 ⟨q, hq, e⟩)]
    · intro m hm
      simp only [List.map_cons, List.mem_cons, not_or] at hm
      rw [hKo2 m hm.2, hKo m hm.1]

end Plan
end Hotmeal
