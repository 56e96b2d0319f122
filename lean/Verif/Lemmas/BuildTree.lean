import Verif.Lemmas.Final
import Verif.Spec.Sound

set_option autoImplicit false

/-!
# The tree built from the old document
-/

namespace Hotmeal

open Arena

/-- What one or more calls of the loop body of `add_arena_children` do: new nodes copy document
nodes. -/
structure Grown (D : Arena NodeData) (T : Arena TData) (p : Nat) (g : Nat → Nat) (T' : Arena TData)
    (g' : Nat → Nat) (ids : List Nat) : Prop where
  wf : T'.WF
  le : T.next ≤ T'.next
  agree : ∀ i, i < T.next → g' i = g i
  parent : ∀ i, i < T.next → T'.parent i = T.parent i
  data : ∀ i, i < T.next → T'.data i = T.data i
  children : ∀ i, i < T.next → T'.children i = T.children i ++ if i = p then ids else []
  new : ∀ i, T.next ≤ i → i < T'.next → T'.Anc p i ∧ T'.data i = tdataOf (D.data (g' i)) ∧
    D.children (g' i) = (T'.children i).map g' ∧ ∃ q, D.parent (g' i) = some q

theorem Grown.trans {D : Arena NodeData} {T T1 T2 : Arena TData} {p : Nat} {g g1 g2 : Nat → Nat}
    {ids1 ids2 : List Nat} (h1 : Grown D T p g T1 g1 ids1) (h2 : Grown D T1 p g1 T2 g2 ids2)
    (hp : p < T.next) : Grown D T p g T2 g2 (ids1 ++ ids2) := by
  have hle := h1.le
  refine ⟨h2.wf, Nat.le_trans h1.le h2.le, ?_, ?_, ?_, ?_, ?_⟩
  · intro i hi; rw [h2.agree i (by omega), h1.agree i hi]
  · intro i hi; rw [h2.parent i (by omega), h1.parent i hi]
  · intro i hi; rw [h2.data i (by omega), h1.data i hi]
  · intro i hi
    rw [h2.children i (by omega), h1.children i hi]
    by_cases e : i = p
    · simp [e]
    · simp [e]
  · intro i hi hi2
    by_cases h : i < T1.next
    · obtain ⟨a1, a2, a3, a4⟩ := h1.new i hi h
      refine ⟨(anc_of_parent_eq h1.wf (fun m hm => h2.parent m hm) h).2 a1, ?_, ?_, ?_⟩
      · rw [h2.data i h, a2, h2.agree i h]
      · rw [h2.agree i h, a3, h2.children i h, if_neg (by omega), List.append_nil]
        apply List.map_congr_left
        intro c hc
        exact (h2.agree c (h1.wf.lt_of_parent _ _ ((h1.wf.mem_iff _ _).1 hc)).1).symm
      · rw [h2.agree i h]; exact a4
    · exact h2.new i (by omega) hi2

/-- Document whose text and comment nodes are leaves and whose children are no document nodes. -/
structure Leafy (D : Arena NodeData) : Prop where
  wf : D.WF
  leaf : ∀ n, ((∃ s, (D.data n).kind = .text s) ∨ (∃ s, (D.data n).kind = .comment s)) →
    D.children n = []
  nodoc : ∀ n p, D.parent n = some p → (D.data n).kind ≠ .document

theorem Arena.Sound.leafy {D : Arena NodeData} (h : D.Sound) : Leafy D := ⟨h.wf, h.leaf, h.nodoc⟩

theorem grow_list {D : Arena NodeData} (cs : List Nat)
    (ih : ∀ c ∈ cs, ∀ T p g, T.WF → p < T.next →
      ∃ T' g', D.fold (addArenaAlg D) c T p = T' ∧ g' T.next = c ∧ T.next < T'.next ∧
        Grown D T p g T' g' [T.next]) :
    ∀ T p g, T.WF → p < T.next →
      ∃ T' g' ids, (cs.map (D.fold (addArenaAlg D))).foldl (fun T r => r T p) T = T' ∧
        ids.map g' = cs ∧ (∀ i ∈ ids, T.next ≤ i ∧ i < T'.next) ∧ Grown D T p g T' g' ids := by
  induction cs with
  | nil =>
    intro T p g hT _
    refine ⟨T, g, [], rfl, rfl, by simp, hT, Nat.le_refl _, fun _ _ => rfl, fun _ _ => rfl,
      fun _ _ => rfl, by simp, ?_⟩
    intro i h1 h2; omega
  | cons c cs ihl =>
    intro T p g hT hp
    obtain ⟨T1, g1, e1, e2, e3, h1⟩ := ih c (by simp) T p g hT hp
    obtain ⟨T2, g2, ids, e4, e5, e6, h2⟩ := ihl (fun c hc => ih c (List.mem_cons_of_mem _ hc)) T1 p g1
      h1.wf (by omega)
    refine ⟨T2, g2, T.next :: ids, ?_, ?_, ?_, h1.trans h2 hp⟩
    · simp only [List.map_cons, List.foldl_cons, e1, e4]
    · rw [List.map_cons, e5, h2.agree _ e3, e2]
    · intro i hi
      have := h2.le
      rcases List.mem_cons.1 hi with rfl | hi
      · omega
      · have := e6 i hi; omega

theorem grow {D : Arena NodeData} (hD : Leafy D) (n : Nat) : (∃ q, D.parent n = some q) →
    ∀ T p g, T.WF → p < T.next →
      ∃ T' g', D.fold (addArenaAlg D) n T p = T' ∧ g' T.next = n ∧ T.next < T'.next ∧
        Grown D T p g T' g' [T.next] := by
  refine hD.wf.induct_down (P := fun n => (∃ q, D.parent n = some q) →
    ∀ T p g, T.WF → p < T.next →
      ∃ T' g', D.fold (addArenaAlg D) n T p = T' ∧ g' T.next = n ∧ T.next < T'.next ∧
        Grown D T p g T' g' [T.next]) ?_ n
  intro n ih hq T p g hT hp
  have hT1 := hT.addChild hp (tdataOf (D.data n))
  have hn1 : (T.addChild p (tdataOf (D.data n))).1.next = T.next + 1 := addChild_next _ _ _
  have hp1 := hT.addChild_parent p (tdataOf (D.data n))
  have hc1 := hT.addChild_children p (tdataOf (D.data n))
  have hd1 := addChild_data T p (tdataOf (D.data n))
  -- the new node, whose children are still to come
  have base : ∀ T' g' ids, ids.map g' = D.children n → (∀ i ∈ ids, T.next + 1 ≤ i) →
      Grown D (T.addChild p (tdataOf (D.data n))).1 T.next (Arena.upd g T.next n) T' g' ids →
      g' T.next = n ∧ T.next < T'.next ∧ Grown D T p g T' g' [T.next] := by
    intro T' g' ids e1 _ h
    generalize (T.addChild p (tdataOf (D.data n))).1 = T1 at *
    have hle := h.le
    have hg : g' T.next = n := by rw [h.agree _ (by omega)]; simp
    have hanc : T'.Anc p T.next := by
      refine .step (p := p) ?_ .refl
      rw [h.parent _ (by omega), hp1, if_pos rfl]
    refine ⟨hg, by omega, h.wf, by omega, ?_, ?_, ?_, ?_, ?_⟩
    · intro i hi; rw [h.agree i (by omega), Arena.upd_ne _ _ (by omega)]
    · intro i hi; rw [h.parent i (by omega), hp1, if_neg (by omega)]
    · intro i hi; rw [h.data i (by omega), hd1, if_neg (by omega)]
    · intro i hi
      rw [h.children i (by omega), hc1, if_neg (by omega : i ≠ T.next), List.append_nil]
      by_cases e : i = p
      · simp [e]
      · simp [e]
    · intro i hi hi2
      by_cases e : i = T.next
      · subst e
        refine ⟨hanc, ?_, ?_, ?_⟩
        · rw [h.data _ (by omega), hd1, if_pos rfl, hg]
        · rw [hg, h.children _ (by omega), if_pos rfl, hc1, if_neg (by omega),
            hT.children_ge (Nat.le_refl _), List.nil_append, e1]
        · rw [hg]; exact hq
      · obtain ⟨a1, a2⟩ := h.new i (by omega) hi2
        exact ⟨hanc.trans a1, a2⟩
  rw [hD.wf.fold_eq]
  unfold addArenaAlg
  have hleaf : D.children n = [] → ∃ T' g', (T.addChild p (tdataOf (D.data n))).1 = T' ∧
      g' T.next = n ∧ T.next < T'.next ∧ Grown D T p g T' g' [T.next] := by
    intro e
    refine ⟨_, Arena.upd g T.next n, rfl, base _ _ [] (by simp [e]) (by simp) ?_⟩
    refine ⟨hT1, Nat.le_refl _, fun _ _ => rfl, fun _ _ => rfl, fun _ _ => rfl, by simp, ?_⟩
    intro i h1 h2; omega
  cases hk : (D.data n).kind with
  | document => obtain ⟨q, hq⟩ := hq; exact absurd hk (hD.nodoc n q hq)
  | text s => exact hleaf (hD.leaf n (.inl ⟨s, hk⟩))
  | comment s => exact hleaf (hD.leaf n (.inr ⟨s, hk⟩))
  | element tag attrs =>
    obtain ⟨T', g', ids, e1, e2, e3, h⟩ := grow_list (D.children n)
      (fun c hc => ih c hc ⟨n, (hD.wf.mem_iff _ _).1 hc⟩)
      (T.addChild p (tdataOf (D.data n))).1 T.next (Arena.upd g T.next n) hT1 (by omega)
    refine ⟨T', g', ?_, base T' g' ids e2 (fun i hi => by have := (e3 i hi).1; omega) h⟩
    exact e1

/-- What `buildTree` gives: a tree with root `0` in which every node is reachable, isomorphic to the
subtree of the body; `g` maps its nodes to document nodes. The root has no attributes. -/
structure Built (D : Document) (ob : Nat) (T : Arena TData) (g : Nat → Nat) : Prop where
  wf : T.WF
  pos : 0 < T.next
  root : T.parent 0 = none
  reach : ∀ n, n < T.next → T.Anc 0 n
  g0 : g 0 = ob
  rdata : T.data 0 = ⟨bodyKind D ob, [], none⟩
  data : ∀ n, n < T.next → n ≠ 0 → T.data n = tdataOf (D.arena.data (g n))
  kids : ∀ n, n < T.next → D.arena.children (g n) = (T.children n).map g
  par : ∀ n, n < T.next → n ≠ 0 → ∃ q, D.arena.parent (g n) = some q

theorem diffable_anc {D : Document} {a b : Nat} (h : D.arena.Anc a b) : (diffable D).Anc a b := by
  induction h with
  | refl => exact .refl
  | step hp _ ih => exact .step hp ih

theorem anc_of_diffable {D : Document} {a b : Nat} (h : (diffable D).Anc a b) : D.arena.Anc a b := by
  induction h with
  | refl => exact .refl
  | step hp _ ih => exact .step hp ih

theorem buildTree_spec (D : Document) (hD : Leafy D.arena) (ob : Nat) :
    ∃ g, Built D ob (buildTree D ob) g := by
  have hE : (⟨0, fun _ => none, fun _ => [], fun _ => default⟩ : Arena TData).WF :=
    { lt_of_parent := fun _ _ h => by cases h
      mem_iff := fun c p => ⟨fun h => (by cases h), fun h => (by cases h)⟩
      nodup := fun _ => List.nodup_nil
      acyclic := ⟨fun _ => 0, fun _ _ h => by cases h⟩ }
  have hT := hE.newNode ⟨bodyKind D ob, [], none⟩
  obtain ⟨T', g, ids, e1, e2, e3, h⟩ := grow_list (D.arena.children ob)
    (fun c hc => grow hD c ⟨ob, (hD.wf.mem_iff _ _).1 hc⟩) _ 0 (fun _ => ob) hT (by
      rw [newNode_next]; omega)
  have hb : buildTree D ob = T' := e1
  rw [hb]
  have hn : ((⟨0, fun _ => none, fun _ => [], fun _ => default⟩ : Arena TData).newNode
    ⟨bodyKind D ob, [], none⟩).1.next = 1 := rfl
  have hle := h.le
  have hg0 : g 0 = ob := h.agree 0 (by omega)
  refine ⟨g, h.wf, by omega, ?_, ?_, hg0, ?_, ?_, ?_, ?_⟩
  · rw [h.parent 0 (by omega)]; rfl
  · intro n hn'
    by_cases e : n = 0
    · subst e; exact .refl
    · exact (h.new n (by omega) hn').1
  · rw [h.data 0 (by omega)]; rfl
  · intro n hn' e; exact (h.new n (by omega) hn').2.1
  · intro n hn'
    by_cases e : n = 0
    · subst e
      have hc0 : T'.children 0 = ids := by
        rw [h.children 0 (by omega), if_pos rfl]; rfl
      rw [hg0, hc0, e2]
    · exact (h.new n (by omega) hn').2.2.1
  · intro n hn' e; exact (h.new n (by omega) hn').2.2.2

namespace Built

variable {D : Document} {ob : Nat} {T : Arena TData} {g : Nat → Nat}

theorem gparent (h : Built D ob T g) (hw : D.arena.WF) {n p : Nat} (hp : T.parent n = some p) :
    D.arena.parent (g n) = some (g p) := by
  refine (hw.mem_iff _ _).1 ?_
  rw [h.kids p (h.wf.lt_of_parent _ _ hp).2]
  exact List.mem_map.2 ⟨n, (h.wf.mem_iff _ _).2 hp, rfl⟩

theorem ganc (h : Built D ob T g) (hw : D.arena.WF) {n : Nat} (hn : T.Anc 0 n) :
    D.arena.Anc ob (g n) := by
  induction hn with
  | refl => rw [h.g0]; exact .refl
  | step hp _ ih => exact .step (h.gparent hw hp) ih

/-- Every node of the subtree is the image of a tree node. -/
theorem surj (h : Built D ob T g) (hw : D.arena.WF) {m : Nat} (hm : D.arena.Anc ob m) :
    ∃ n, n < T.next ∧ g n = m := by
  induction hm with
  | refl => exact ⟨0, h.pos, h.g0⟩
  | @step m p hp _ ih =>
    obtain ⟨n, hn, rfl⟩ := ih
    have hm := (hw.mem_iff _ _).2 hp
    rw [h.kids n hn] at hm
    obtain ⟨c, hc, rfl⟩ := List.mem_map.1 hm
    exact ⟨c, (h.wf.lt_of_parent _ _ ((h.wf.mem_iff _ _).1 hc)).1, rfl⟩

theorem g_ne (h : Built D ob T g) (hw : D.arena.WF) {n : Nat} (hn : n < T.next) (h0 : n ≠ 0) :
    g n ≠ ob := by
  intro e
  rcases (h.reach n hn).cases' with e1 | ⟨p, hp, hpa⟩
  · exact h0 e1.symm
  · have h2 := h.gparent hw hp
    rw [e] at h2
    exact hw.self_parent_ne h2 (hw.anc_antisymm (.step h2 .refl) (h.ganc hw hpa))

theorem diffable_wf {D : Document} (hw : D.arena.WF) : (diffable D).WF :=
  ⟨hw.lt_of_parent, hw.mem_iff, hw.nodup, hw.acyclic⟩

/-- If the body is not opaque then tree and document agree on what is inside opaque elements. -/
theorem inside_iff (h : Built D ob T g) (hw : D.arena.WF)
    (ho : ((diffable D).data ob).props.isOpaque = false) {n : Nat} (hn : T.Anc 0 n) :
    InsideOpaque T 0 n ↔ InsideOpaque (diffable D) ob (g n) := by
  induction hn with
  | refl =>
    rw [h.g0]
    exact ⟨fun e => absurd e (InsideOpaque.not_root h.wf),
      fun e => absurd e (InsideOpaque.not_root (diffable_wf hw))⟩
  | @step n p hp ha ih =>
    have hg : (diffable D).parent (g n) = some (g p) := h.gparent hw hp
    rw [InsideOpaque.parent_iff h.wf hp ha,
      InsideOpaque.parent_iff (diffable_wf hw) hg (diffable_anc (h.ganc hw ha)), ih]
    have hlt := (h.wf.lt_of_parent _ _ hp).2
    by_cases e : p = 0
    · subst e
      have e1 : (T.data 0).props.isOpaque = false := by rw [h.rdata]; rfl
      rw [h.g0, e1, ho]
    · rw [h.data p hlt e]; rfl

/-- The document the tree was built from corresponds to the tree. -/
theorem docRel (h : Built D ob T g) (hD : Leafy D.arena) (hb : ob < D.arena.next)
    (he : (D.arena.data ob).kind.IsElement) (hc : (D.arena.data ob).kind.Clean) :
    DocRel T D.arena ob g where
  wf := hD.wf
  db_lt := hb
  root := h.g0
  kids := fun n hn _ => ⟨[], by rw [h.kids n hn.1, List.append_nil], by simp⟩
  data := by
    intro n ⟨hn, _⟩ h0
    obtain ⟨q, hq⟩ := h.par n hn h0
    rw [h.data n hn h0, kindOf_tdataOf (hD.nodoc _ q hq)]
  elem := he
  clean := hc
  leaf := fun n s hs => hD.leaf n (.inl ⟨s, hs⟩)

/-- A document that mirrors the tree of another document corresponds to the tree built from the
latter. -/
theorem docRel_of_mirror (h : Built D ob T g) (hD : Leafy D.arena) {E : Arena NodeData} {db : Nat}
    {k0 : NodeKind} {body : Nat → Option (List Html)} {m : Nat → Nat}
    (hm : Mirror (diffable D) ob E db k0 body m)
    (hbody : ∀ b, ((diffable D).data b).props.isOpaque = false → body b = none)
    (ho : ((diffable D).data ob).props.isOpaque = false) (he : k0.IsElement)
    (hc : k0.Clean) : DocRel T E db (fun n => m (g n)) where
  wf := hm.wf
  db_lt := hm.db_lt
  root := by show m (g 0) = db; rw [h.g0, hm.root]
  kids := by
    intro n ⟨hn, hin⟩ hno
    have ha := diffable_anc (h.ganc hD.wf (h.reach n hn))
    have hgo : ((diffable D).data (g n)).props.isOpaque = false := by
      by_cases e : n = 0
      · subst e; rw [h.g0]; exact ho
      · rw [h.data n hn e] at hno; exact hno
    obtain ⟨junk, hk, hj⟩ := hm.kids (g n) ha
      (fun e => hin ((h.inside_iff hD.wf ho (h.reach n hn)).2 e)) (hbody _ hgo)
    refine ⟨junk, ?_, hj⟩
    rw [hk]
    show (D.arena.children (g n)).map m ++ junk = _
    rw [h.kids n hn, List.map_map]; rfl
  data := by
    intro n ⟨hn, hin⟩ h0
    have ha := diffable_anc (h.ganc hD.wf (h.reach n hn))
    rw [hm.data (g n) ha (fun e => hin ((h.inside_iff hD.wf ho (h.reach n hn)).2 e))
      (h.g_ne hD.wf hn h0), h.data n hn h0]
    rfl
  elem := by rw [hm.rootK]; exact he
  clean := by rw [hm.rootK]; exact hc
  leaf := hm.leaf

end Built
end Hotmeal
