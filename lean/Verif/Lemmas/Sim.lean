import Verif.Lemmas.DocOps
import Verif.Lemmas.Content

set_option autoImplicit false

/-!
# Simulation between the shadow tree and the document being patched
-/

namespace Hotmeal

/-- What is known about a tracked node: its kind and, if its content is not tracked (opaque
elements), the content. -/
abbrev Mark := NodeKind × Option (List Html)

/-- The shadow tree `S` and the patched document `D` correspond: `f` maps the tracked shadow nodes
`T` to document nodes, `K` gives the kind of the document node and the content of opaque elements,
`D0` is the document before patching and `Out` are the nodes outside the patched part. Child lists
of the document may have additional empty text nodes, from `J`, at the end. -/
structure Sim (r0 : Nat) (Out J : Nat → Prop) (D0 : Arena NodeData) (S : Shadow)
    (D : Arena NodeData) (slots : Slots) (f : Nat → Nat) (T : Nat → Prop) (K : Nat → Mark) :
    Prop where
  shape : S.Shape
  dwf : D.WF
  t_lt : ∀ n, T n → n < S.arena.next
  t_ns : ∀ n, T n → n ≠ S.superRoot ∧ ¬ S.IsSlot n
  f_lt : ∀ n, T n → f n < D.next
  inj : ∀ n m, T n → T m → f n = f m → n = m
  down : ∀ n c, T n → (K n).2 = none → c ∈ S.arena.children n → T c
  up : ∀ n p, T n → S.arena.parent n = some p → (T p ∧ (K p).2 = none) ∨ S.IsSlot p
  kids : ∀ n, T n → (K n).2 = none → ∃ junk, D.children (f n) = (S.arena.children n).map f ++ junk ∧
    ∀ j ∈ junk, (D.data j).kind = .text [] ∧ J j
  body : ∀ n c, T n → (K n).2 = some c → D.forest (f n) = c
  root : ∀ n p, T n → S.arena.parent n = some p → S.IsSlot p →
    slots (Arena.posIn (S.arena.children S.superRoot) p) = some (f n)
  free : ∀ n, T n → n ≠ r0 → (∀ p, S.arena.parent n = some p → S.IsSlot p) → D.parent (f n) = none
  rootT : T r0
  rootS : ∃ p, S.arena.parent r0 = some p ∧ S.IsSlot p
  rootp : ∀ q, D.parent (f r0) = some q → Out q
  data : ∀ n, T n → (D.data (f n)).kind = (K n).1
  next_le : D0.next ≤ D.next
  out_lt : ∀ n, Out n → n < D0.next
  outp : ∀ n q, Out n → D0.parent n = some q → Out q
  tout : ∀ n, T n → ¬ Out (f n)
  dleaf : ∀ n s, (D.data n).kind = .text s → D.children n = []
  frame : ∀ n, Out n → D.parent n = D0.parent n ∧ D.children n = D0.children n ∧ D.data n = D0.data n

/-- Equal entries of a duplicate-free list are at equal indices. -/
theorem List.nodup_getElem?_inj {α : Type} {l : List α} (h : l.Nodup) {i j : Nat} {x : α}
    (hi : l[i]? = some x) (hj : l[j]? = some x) : i = j := by
  obtain ⟨h1, e1⟩ := List.getElem?_eq_some_iff.1 hi
  obtain ⟨h2, e2⟩ := List.getElem?_eq_some_iff.1 hj
  rcases Nat.lt_trichotomy i j with h3 | h3 | h3
  · exact absurd (e1.trans e2.symm) (List.pairwise_iff_getElem.1 h i j h1 h2 h3)
  · exact h3
  · exact absurd (e2.trans e1.symm) (List.pairwise_iff_getElem.1 h j i h2 h1 h3)

namespace Sim

variable {r0 : Nat} {Out J : Nat → Prop} {D0 : Arena NodeData} {S : Shadow} {D : Arena NodeData}
  {slots : Slots} {f : Nat → Nat} {T : Nat → Prop} {K : Nat → Mark}

theorem dparent (h : Sim r0 Out J D0 S D slots f T K) {n p : Nat} (hn : T n)
    (hp : S.arena.parent n = some p) (hs : ¬ S.IsSlot p) : T p ∧ D.parent (f n) = some (f p) := by
  obtain ⟨hT, hO⟩ := (h.up n p hn hp).resolve_right hs
  refine ⟨hT, ?_⟩
  obtain ⟨junk, hk, _⟩ := h.kids p hT hO
  rw [← h.dwf.mem_iff, hk, List.mem_append, List.mem_map]
  exact .inl ⟨n, (h.shape.wf.mem_iff _ _).2 hp, rfl⟩

/-- A tracked node below a node is not below an opaque element. -/
theorem up_open (h : Sim r0 Out J D0 S D slots f T K) {n p : Nat} (hn : T n)
    (hp : S.arena.parent n = some p) (hs : ¬ S.IsSlot p) : (K p).2 = none :=
  ((h.up n p hn hp).resolve_right hs).2

theorem junk_not_f (h : Sim r0 Out J D0 S D slots f T K) {n m j : Nat} {junk : List Nat} (hn : T n)
    (hk : D.children (f n) = (S.arena.children n).map f ++ junk) (hj : j ∈ junk) (hm : T m) :
    j ≠ f m := by
  rintro rfl
  have hpar : D.parent (f m) = some (f n) := by
    rw [← h.dwf.mem_iff, hk]; exact List.mem_append_right _ hj
  by_cases hs : ∀ p, S.arena.parent m = some p → S.IsSlot p
  · by_cases hr : m = r0
    · subst hr; exact h.tout n hn (h.rootp _ hpar)
    · rw [h.free m hm hr hs] at hpar; cases hpar
  · simp only [Classical.not_forall] at hs
    obtain ⟨p, hp, hs⟩ := hs
    obtain ⟨hT, hd⟩ := h.dparent hm hp hs
    rw [hpar] at hd
    injection hd with hd
    have := h.inj _ _ hn hT hd
    subst this
    have hnd := h.dwf.nodup (f n)
    rw [hk, List.nodup_append] at hnd
    exact hnd.2.2 (f m) (List.mem_map.2 ⟨m, (h.shape.wf.mem_iff _ _).2 hp, rfl⟩) _ hj rfl

theorem junk_not_out (h : Sim r0 Out J D0 S D slots f T K) {n j : Nat} (hn : T n)
    (hj : j ∈ D.children (f n)) : ¬ Out j := by
  intro ho
  have hp := (h.dwf.mem_iff _ _).1 hj
  rw [(h.frame j ho).1] at hp
  exact h.tout n hn (h.outp j _ ho hp)

/-- Paths of tracked nodes lead to their document nodes. -/
theorem navigate (h : Sim r0 Out J D0 S D slots f T K) {n : Nat} {q : Path} (hq : S.IsPath n q) :
    T n → Hotmeal.navigate D slots q = .ok (f n) := by
  induction hq with
  | @base n p hp hs =>
    intro hn
    simp only [Hotmeal.navigate, h.root n p hn hp hs, navLoop]
  | @step n p q hp hs _ ih =>
    intro hn
    obtain ⟨hT, _⟩ := h.dparent hn hp hs
    rw [navigate_append (ih hT)]
    obtain ⟨junk, hk, _⟩ := h.kids p hT (h.up_open hn hp hs)
    have hm : n ∈ S.arena.children p := (h.shape.wf.mem_iff _ _).2 hp
    have hi : (S.arena.children p)[Arena.posIn (S.arena.children p) n]? = some n := by
      rw [Arena.posIn, if_pos hm, List.getElem?_eq_getElem (List.idxOf_lt_length_of_mem hm)]
      simp
    have : (D.children (f p))[Arena.posIn (S.arena.children p) n]? = some (f n) := by
      have hlt := (List.getElem?_eq_some_iff.1 hi).1
      rw [hk, List.getElem?_append_left (by simpa using hlt), List.getElem?_map, hi]; rfl
    simp only [navLoop, this]

theorem out_anc (h : Sim r0 Out J D0 S D slots f T K) {x q : Nat} (ha : D.Anc x q) :
    Out q → Out x := by
  induction ha with
  | refl => exact id
  | step hp _ ih =>
    intro ho
    rw [(h.frame _ ho).1] at hp
    exact ih (h.outp _ _ ho hp)

theorem anc (h : Sim r0 Out J D0 S D slots f T K) {x p : Nat} (hx : T x) (hp : T p)
    (ha : D.Anc (f x) (f p)) : S.arena.Anc x p := by
  generalize hq : f p = q at ha
  induction ha generalizing p with
  | refl => have := h.inj _ _ hp hx hq; subst this; exact .refl
  | @step n p' hn ha' ih =>
    subst hq
    by_cases hs : ∀ q, S.arena.parent p = some q → S.IsSlot q
    · by_cases hr : p = r0
      · subst hr
        exact absurd (h.out_anc ha' (h.rootp _ hn)) (h.tout x hx)
      · rw [h.free p hp hr hs] at hn; cases hn
    · simp only [Classical.not_forall] at hs
      obtain ⟨p1, hp1, hs⟩ := hs
      obtain ⟨hT, hd⟩ := h.dparent hp hp1 hs
      rw [hn] at hd
      injection hd with hd
      exact .step hp1 (ih hT hd.symm)

/-- Tracked nodes are not below opaque elements. -/
theorem below (h : Sim r0 Out J D0 S D slots f T K) {m n : Nat} (hm : T m)
    (hO : (K m).2 ≠ none) (ha : S.arena.Anc m n) (hn : T n) : n = m := by
  induction ha with
  | refl => rfl
  | @step n p hp ha ih =>
    rcases h.up n p hn hp with ⟨hT, h1⟩ | hs
    · rw [ih hT] at h1; exact absurd h1 hO
    · rcases ha.cases' with rfl | ⟨q, hq, ha'⟩
      · exact absurd hs (h.t_ns _ hm).2
      · rw [Shadow.IsSlot] at hs
        rw [hs] at hq; cases hq
        rcases ha'.cases' with e | ⟨q, hq, _⟩
        · exact absurd e (h.t_ns _ hm).1
        · rw [h.shape.super_none] at hq; cases hq

/-- The content of opaque elements depends only on nodes that are not tracked. -/
theorem body_keep (h : Sim r0 Out J D0 S D slots f T K) {D' : Arena NodeData} (hw : D'.WF)
    {m : Nat} {c : List Html} (hm : T m) (hO : (K m).2 = some c)
    (hc : ∀ y, y < D.next → (∀ n, T n → (K n).2 = none → y ≠ f n) → D'.children y = D.children y)
    (hd : ∀ y, y < D.next → (∀ n, T n → y ≠ f n) → (D'.data y).kind = (D.data y).kind) :
    D'.forest (f m) = c := by
  have hO' : (K m).2 ≠ none := by rw [hO]; simp
  have hck : D'.children (f m) = D.children (f m) := by
    refine hc _ (h.f_lt m hm) ?_
    intro n hn ho e
    rw [h.inj _ _ hm hn e] at hO'
    exact hO' ho
  rw [← h.body m c hm hO]
  unfold Arena.forest
  rw [hck]
  apply List.map_congr_left
  intro x hx
  apply Arena.tree_congr' h.dwf hw
  intro y hy
  have hxp := (h.dwf.mem_iff _ _).1 hx
  have hyl : y < D.next := by
    rcases hy.cases' with rfl | ⟨q, hq, _⟩
    · exact (h.dwf.lt_of_parent _ _ hxp).1
    · exact (h.dwf.lt_of_parent _ _ hq).1
  have hne : ∀ n, T n → y ≠ f n := by
    rintro n hn rfl
    have := h.below hm hO' (h.anc hm hn (Arena.Anc.trans (.step hxp .refl) hy)) hn
    subst this
    obtain ⟨rank, hr⟩ := h.dwf.acyclic
    have h1 := hy.rank_le hr
    have h2 := hr _ _ hxp
    omega
  exact ⟨hc y hyl fun n hn _ => hne n hn, hd y hyl hne⟩

/-! ### Steps -/

/-- Changing the data of a tracked node. -/
theorem setData (h : Sim r0 Out J D0 S D slots f T K) {a : Nat} (ha : T a) (d : NodeData)
    (hd : ∀ s, d.kind = .text s → ∃ s', (K a).1 = .text s') :
    Sim r0 Out J D0 S (D.setData (f a) d) slots f T (Arena.upd K a (d.kind, (K a).2)) := by
  have hK : ∀ n, (Arena.upd K a (d.kind, (K a).2) n).2 = (K n).2 := by
    intro n
    rw [Arena.upd_apply]
    by_cases e : n = a
    · rw [if_pos e, e]
    · rw [if_neg e]
  refine { h with
    dwf := h.dwf.setData _ _, down := ?_, up := ?_, kids := ?_, body := ?_, data := ?_, dleaf := ?_
    frame := ?_ }
  · intro n c hn; rw [hK]; exact h.down n c hn
  · intro n p hn hp; rw [hK]; exact h.up n p hn hp
  · intro n hn
    rw [hK]
    intro ho
    obtain ⟨junk, hk, hj⟩ := h.kids n hn ho
    refine ⟨junk, hk, ?_⟩
    intro j hjm
    have := h.junk_not_f hn hk hjm ha
    simp only [Arena.setData, Arena.upd_apply, if_neg this]
    exact hj j hjm
  · intro n c hn
    rw [hK]
    intro hc
    refine h.body_keep (h.dwf.setData _ _) hn hc (fun _ _ _ => rfl) ?_
    intro y _ hy
    simp only [Arena.setData, Arena.upd_apply, if_neg (hy a ha)]
  · intro n hn
    simp only [Arena.setData, Arena.upd_apply]
    by_cases e : n = a
    · rw [if_pos e, e, if_pos rfl]
    · rw [if_neg e, if_neg (fun e' => e (h.inj _ _ hn ha e'))]
      exact h.data n hn
  · intro n s
    simp only [Arena.setData, Arena.upd_apply]
    by_cases e : n = f a
    · rw [if_pos e, e]
      intro hs
      obtain ⟨s', hs'⟩ := hd s hs
      exact h.dleaf _ s' (by rw [h.data a ha, hs'])
    · rw [if_neg e]; exact h.dleaf n s
  · intro n ho
    obtain ⟨h1, h2, h3⟩ := h.frame n ho
    refine ⟨h1, h2, ?_⟩
    simp only [Arena.setData, Arena.upd_apply]
    rw [if_neg (by rintro rfl; exact h.tout a ha ho), h3]

theorem map_congr (h : Sim r0 Out J D0 S D slots f T K) {f' : Nat → Nat}
    (hf : ∀ m, m < S.arena.next → f' m = f m) (n : Nat) :
    (S.arena.children n).map f' = (S.arena.children n).map f := by
  apply List.map_congr_left
  intro c hc
  exact hf c (h.shape.wf.lt_of_parent _ _ ((h.shape.wf.mem_iff _ _).1 hc)).1

/-- A new node in both trees; in the document it may be an opaque element with content. -/
theorem create (h : Sim r0 Out J D0 S D slots f T K) (t : TData) {d : NodeData}
    {D' : Arena NodeData} (hD : Created D D' d) (o : Option (List Html))
    (hon : o = none → D'.children D.next = []) (hos : ∀ c, o = some c → D'.forest D.next = c) :
    Sim r0 Out J D0 { S with arena := (S.arena.newNode t).1 } D' slots
      (Arena.upd f S.arena.next D.next) (fun n => T n ∨ n = S.arena.next)
      (Arena.upd K S.arena.next (d.kind, o)) := by
  have hw := h.shape.wf
  have hsl := h.shape.super_lt
  have sp := hw.newNode_parent t
  have sc := hw.newNode_children t
  have hDn := hD.next_lt
  have hnl := h.next_le
  have hf : ∀ m, m < S.arena.next → Arena.upd f S.arena.next D.next m = f m :=
    fun m hm => Arena.upd_ne _ _ (by omega)
  have hfx : Arena.upd f S.arena.next D.next S.arena.next = D.next := Arena.upd_same _ _ _
  have hK : ∀ m, m < S.arena.next → Arena.upd K S.arena.next (d.kind, o) m = K m :=
    fun m hm => Arena.upd_ne _ _ (by omega)
  have hlt := h.t_lt
  have hflt := h.f_lt
  have hslot : ∀ m, ({ S with arena := (S.arena.newNode t).1 } : Shadow).IsSlot m ↔ S.IsSlot m := by
    intro m; simp only [Shadow.IsSlot, sp]
  have hxp : S.arena.parent S.arena.next = none := hw.parent_ge (Nat.le_refl _)
  have hr0 := hlt r0 h.rootT
  constructor
  · refine ⟨hw.newNode t, Nat.lt_succ_of_lt hsl, ?_, ?_⟩
    · show (S.arena.newNode t).1.parent _ = _; rw [sp]; exact h.shape.super_none
    · show ((S.arena.newNode t).1.children _).length = _; rw [sc]; exact h.shape.slots_len
  · exact hD.wf
  · rintro n (hn | rfl)
    · exact Nat.lt_succ_of_lt (hlt n hn)
    · exact Nat.lt_succ_self _
  · rintro n (hn | rfl)
    · exact ⟨(h.t_ns n hn).1, by rw [hslot]; exact (h.t_ns n hn).2⟩
    · exact ⟨by show S.arena.next ≠ S.superRoot; omega, by rw [hslot, Shadow.IsSlot, hxp]; simp⟩
  · rintro n (hn | rfl)
    · rw [hf n (hlt n hn)]; exact Nat.lt_trans (hflt n hn) hDn
    · rw [hfx]; exact hDn
  · rintro n m (hn | rfl) (hm | rfl)
    · rw [hf n (hlt n hn), hf m (hlt m hm)]; exact h.inj n m hn hm
    · rw [hf n (hlt n hn), hfx]; intro e; have := hflt n hn; omega
    · rw [hf m (hlt m hm), hfx]; intro e; have := hflt m hm; omega
    · intro _; rfl
  · intro n c hn ho hc
    rw [show ({ S with arena := (S.arena.newNode t).1 } : Shadow).arena.children n = _ from sc n] at hc
    rcases hn with hn | rfl
    · rw [hK n (hlt n hn)] at ho; exact .inl (h.down n c hn ho hc)
    · rw [hw.children_ge (Nat.le_refl _)] at hc; cases hc
  · intro n p hn hp
    rw [show ({ S with arena := (S.arena.newNode t).1 } : Shadow).arena.parent n = _ from sp n] at hp
    rcases hn with hn | rfl
    · rcases h.up n p hn hp with h1 | h1
      · exact .inl ⟨.inl h1.1, by rw [hK p (hlt p h1.1)]; exact h1.2⟩
      · exact .inr ((hslot p).2 h1)
    · rw [hxp] at hp; cases hp
  · intro n hn ho
    show ∃ junk, D'.children _ = ((S.arena.newNode t).1.children n).map _ ++ junk ∧ _
    rw [sc]
    rcases hn with hn | rfl
    · rw [hK n (hlt n hn)] at ho
      obtain ⟨junk, hk, hj⟩ := h.kids n hn ho
      rw [hf n (hlt n hn), hD.children _ (hflt n hn)]
      refine ⟨junk, by rw [h.map_congr hf, hk], ?_⟩
      intro j hjm
      have hjl : j < D.next := (h.dwf.lt_of_parent _ _ ((h.dwf.mem_iff _ _).1
        (by rw [hk]; exact List.mem_append_right _ hjm : j ∈ D.children (f n)))).1
      rw [hD.data j hjl]; exact hj j hjm
    · refine ⟨[], ?_, by simp⟩
      rw [Arena.upd_same] at ho
      rw [hfx, hon ho, hw.children_ge (Nat.le_refl _)]; rfl
  · rintro n c (hn | rfl) ho
    · rw [hK n (hlt n hn)] at ho
      rw [hf n (hlt n hn)]
      exact h.body_keep hD.wf hn ho (fun y hy _ => hD.children y hy)
        (fun y hy _ => by rw [hD.data y hy])
    · rw [Arena.upd_same] at ho
      rw [hfx]; exact hos c ho
  · intro n p hn hp hs
    rw [show ({ S with arena := (S.arena.newNode t).1 } : Shadow).arena.parent n = _ from sp n] at hp
    rw [hslot] at hs
    show slots (Arena.posIn ((S.arena.newNode t).1.children S.superRoot) p) = _
    rw [sc]
    rcases hn with hn | rfl
    · rw [hf n (hlt n hn)]; exact h.root n p hn hp hs
    · rw [hxp] at hp; cases hp
  · intro n hn hr hp
    rcases hn with hn | rfl
    · rw [hf n (hlt n hn), hD.parent _ (hflt n hn)]
      refine h.free n hn hr ?_
      intro p hp'
      rw [← hslot]; exact hp p (by show (S.arena.newNode t).1.parent n = _; rw [sp]; exact hp')
    · rw [hfx]; exact hD.self
  · exact .inl h.rootT
  · obtain ⟨p, hp, hs⟩ := h.rootS
    exact ⟨p, by show (S.arena.newNode t).1.parent _ = _; rw [sp]; exact hp, (hslot p).2 hs⟩
  · intro q
    rw [hf r0 hr0, hD.parent _ (hflt r0 h.rootT)]; exact h.rootp q
  · rintro n (hn | rfl)
    · have := hflt n hn
      rw [hf n (hlt n hn), hK n (hlt n hn), hD.data _ this]; exact h.data n hn
    · rw [hfx, hD.node, Arena.upd_same]
  · omega
  · exact h.out_lt
  · exact h.outp
  · rintro n (hn | rfl)
    · rw [hf n (hlt n hn)]; exact h.tout n hn
    · rw [hfx]; intro ho; have := h.out_lt _ ho; omega
  · intro n s
    by_cases e : n < D.next
    · rw [hD.data n e, hD.children n e]; exact h.dleaf n s
    · exact hD.leaf n s (by omega)
  · intro n ho
    have := h.out_lt _ ho
    obtain ⟨h1, h2, h3⟩ := h.frame n ho
    exact ⟨by rw [hD.parent n (by omega), h1], by rw [hD.children n (by omega), h2],
      by rw [hD.data n (by omega), h3]⟩

/-- A new node in both trees. -/
theorem newNode (h : Sim r0 Out J D0 S D slots f T K) (t : TData) (d : NodeData) :
    Sim r0 Out J D0 { S with arena := (S.arena.newNode t).1 } (D.newNode d).1 slots
      (Arena.upd f S.arena.next D.next) (fun n => T n ∨ n = S.arena.next)
      (Arena.upd K S.arena.next (d.kind, none)) :=
  h.create t (h.dwf.created d) none
    (fun _ => by rw [h.dwf.newNode_children]; exact h.dwf.children_ge (Nat.le_refl _))
    (fun _ e => by cases e)

/-- Only the document got a new node. -/
theorem docNew (h : Sim r0 Out J D0 S D slots f T K) (d : NodeData) :
    Sim r0 Out J D0 S (D.newNode d).1 slots f T K := by
  have dp := h.dwf.newNode_parent d
  have dc := h.dwf.newNode_children d
  have dd := Arena.newNode_data D d
  have hflt := h.f_lt
  have hnl := h.next_le
  refine { h with
    dwf := h.dwf.newNode d, f_lt := ?_, kids := ?_, body := ?_, free := ?_, rootp := ?_, data := ?_
    next_le := ?_, dleaf := ?_, frame := ?_ }
  · intro n hn; exact Nat.lt_succ_of_lt (hflt n hn)
  · intro n hn ho
    obtain ⟨junk, hk, hj⟩ := h.kids n hn ho
    refine ⟨junk, by rw [dc, hk], ?_⟩
    intro j hjm
    have hjl : j < D.next := (h.dwf.lt_of_parent _ _ ((h.dwf.mem_iff _ _).1
      (by rw [hk]; exact List.mem_append_right _ hjm : j ∈ D.children (f n)))).1
    rw [dd, if_neg (by omega)]; exact hj j hjm
  · intro n c hn hc
    exact h.body_keep (h.dwf.newNode d) hn hc (fun y _ _ => dc y)
      (fun y hy _ => by rw [dd, if_neg (by omega)])
  · intro n hn hr hp; rw [dp]; exact h.free n hn hr hp
  · intro q; rw [dp]; exact h.rootp q
  · intro n hn
    have := hflt n hn
    rw [dd, if_neg (by omega)]; exact h.data n hn
  · show D0.next ≤ D.next + 1; omega
  · intro n s
    rw [dd, dc]
    by_cases e : n = D.next
    · intro _; rw [e]; exact h.dwf.children_ge (Nat.le_refl _)
    · rw [if_neg e]; exact h.dleaf n s
  · intro n ho
    have := h.out_lt _ ho
    obtain ⟨h1, h2, h3⟩ := h.frame n ho
    exact ⟨by rw [dp, h1], by rw [dc, h2], by rw [dd, if_neg (by omega), h3]⟩

/-- A tracked node below a tracked node is replaced by a fresh empty text node in both trees. -/
theorem repl (h : Sim r0 Out J D0 S D slots f T K) {S' : Shadow} {D' : Arena NodeData} {n p : Nat}
    (hn : T n) (hp : S.arena.parent n = some p) (hs : ¬ S.IsSlot p)
    (hS : S.Repl S' n p) (hD : D.Replaced D' (f n) (f p) Document.emptyText) :
    Sim r0 Out J D0 S' D' slots (Arena.upd f S.arena.next D.next)
      (fun m => T m ∨ m = S.arena.next) (Arena.upd K S.arena.next (.text [], none)) := by
  obtain ⟨hTp, hdp⟩ := h.dparent hn hp hs
  have hOp := h.up_open hn hp hs
  have hw := h.shape.wf
  have hsl := h.shape.super_lt
  have hnl := h.next_le
  have hlt := h.t_lt
  have hflt := h.f_lt
  have hf : ∀ m, m < S.arena.next → Arena.upd f S.arena.next D.next m = f m :=
    fun m hm => Arena.upd_ne _ _ (by omega)
  have hfx : Arena.upd f S.arena.next D.next S.arena.next = D.next := Arena.upd_same _ _ _
  have hK : ∀ m, m < S.arena.next → Arena.upd K S.arena.next (.text [], none) m = K m :=
    fun m hm => Arena.upd_ne _ _ (by omega)
  have hr0 := hlt r0 h.rootT
  have hnr : n ≠ r0 := by
    rintro rfl
    obtain ⟨q, hq, hqs⟩ := h.rootS
    rw [hp] at hq; cases hq; exact hs hqs
  have hplt := hlt p hTp
  have hnlt := hlt n hn
  have hslot : ∀ m, S'.IsSlot m ↔ S.IsSlot m := by
    intro m
    simp only [Shadow.IsSlot, hS.super, hS.parent]
    by_cases h1 : m = n
    · subst h1; simp only [if_true]
      constructor
      · intro e; cases e
      · intro e; exact absurd e (h.t_ns m hn).2
    · rw [if_neg h1]
      by_cases h2 : m = S.arena.next
      · subst h2
        rw [if_pos rfl, hw.parent_ge (Nat.le_refl _)]
        constructor
        · intro e; injection e with e; exact absurd e (h.t_ns p hTp).1
        · intro e; cases e
      · rw [if_neg h2]
  have hpsup : p ≠ S.superRoot := (h.t_ns p hTp).1
  have hcsup : S'.arena.children S'.superRoot = S.arena.children S.superRoot := by
    rw [hS.super, hS.children, if_neg (Ne.symm hpsup)]
  have hDout : ∀ y, y < D.next → y ≠ f n → D'.parent y = D.parent y := by
    intro y hy hne
    rw [hD.parent, if_neg hne, if_neg (by omega)]
  constructor
  · exact hS.shape
  · exact hD.wf
  · intro m hm
    rw [hS.next]
    rcases hm with hm | rfl
    · have := hlt m hm; omega
    · omega
  · rintro m (hm | rfl)
    · rw [hslot, hS.super]; exact h.t_ns m hm
    · rw [hslot, hS.super]
      exact ⟨by omega, by rw [Shadow.IsSlot, hw.parent_ge (Nat.le_refl _)]; simp⟩
  · rw [hD.next]
    rintro m (hm | rfl)
    · rw [hf m (hlt m hm)]; exact Nat.lt_succ_of_lt (hflt m hm)
    · rw [hfx]; exact Nat.lt_succ_self _
  · rintro a b (ha | rfl) (hb | rfl)
    · rw [hf a (hlt a ha), hf b (hlt b hb)]; exact h.inj a b ha hb
    · rw [hf a (hlt a ha), hfx]; intro e; have := hflt a ha; omega
    · rw [hf b (hlt b hb), hfx]; intro e; have := hflt b hb; omega
    · intro _; rfl
  · intro m c hm ho hc
    rw [hS.children] at hc
    by_cases h1 : m = p
    · rw [if_pos h1, Arena.mem_swapIn ((hw.mem_iff _ _).2 hp)] at hc
      rcases hc with hc | ⟨hc, _⟩
      · exact .inr hc
      · exact .inl (h.down p c hTp hOp hc)
    · rw [if_neg h1] at hc
      rcases hm with hm | rfl
      · rw [hK m (hlt m hm)] at ho; exact .inl (h.down m c hm ho hc)
      · rw [hw.children_ge (Nat.le_refl _)] at hc; cases hc
  · intro m q hm hq
    rw [hS.parent] at hq
    by_cases h1 : m = n
    · rw [if_pos h1] at hq; cases hq
    · rw [if_neg h1] at hq
      by_cases h2 : m = S.arena.next
      · rw [if_pos h2] at hq; cases hq; exact .inl ⟨.inl hTp, by rw [hK _ hplt]; exact hOp⟩
      · rw [if_neg h2] at hq
        rcases h.up m q (hm.resolve_right h2) hq with h3 | h3
        · exact .inl ⟨.inl h3.1, by rw [hK _ (hlt _ h3.1)]; exact h3.2⟩
        · exact .inr ((hslot q).2 h3)
  · -- kids
    have hjunk : ∀ m junk, T m → D.children (f m) = (S.arena.children m).map f ++ junk →
        (∀ j ∈ junk, (D.data j).kind = .text [] ∧ J j) →
        ∀ j ∈ junk, (D'.data j).kind = .text [] ∧ J j := by
      intro m junk hm hk hj j hjm
      have hjl : j < D.next := (h.dwf.lt_of_parent _ _ ((h.dwf.mem_iff _ _).1
        (by rw [hk]; exact List.mem_append_right _ hjm : j ∈ D.children (f m)))).1
      rw [hD.data, if_neg (by omega)]; exact hj j hjm
    rintro m (hm | rfl) ho
    · rw [hK m (hlt m hm)] at ho
      obtain ⟨junk, hk, hj⟩ := h.kids m hm ho
      refine ⟨junk, ?_, hjunk m junk hm hk hj⟩
      rw [hf m (hlt m hm), hD.children, hS.children]
      by_cases h1 : m = p
      · subst h1
        rw [if_pos rfl, if_pos rfl, hk, Arena.swapIn_append,
          Arena.swapIn_of_not_mem (fun hmem => h.junk_not_f hm hk hmem hn rfl)]
        congr 1
        simp only [Arena.swapIn, List.map_map]
        apply List.map_congr_left
        intro c hc
        have hcT := h.down m c hm ho hc
        simp only [Function.comp]
        by_cases h2 : c = n
        · rw [if_pos (by rw [h2]), if_pos h2, hfx]
        · rw [if_neg (fun e => h2 (h.inj _ _ hcT hn e)), if_neg h2, hf c (hlt c hcT)]
      · rw [if_neg h1, if_neg (fun e => h1 (h.inj _ _ hm hTp e)), h.map_congr hf, hk]
    · refine ⟨[], ?_, by simp⟩
      have := hflt p hTp
      rw [hfx, hD.children, hS.children, if_neg (by omega), if_neg (by omega),
        h.dwf.children_ge (Nat.le_refl _), hw.children_ge (Nat.le_refl _)]; rfl
  · rintro m c (hm | rfl) ho
    · rw [hK m (hlt m hm)] at ho
      rw [hf m (hlt m hm)]
      refine h.body_keep hD.wf hm ho ?_ ?_
      · intro y _ hy; rw [hD.children, if_neg (hy p hTp hOp)]
      · intro y hy _; rw [hD.data, if_neg (by omega)]
    · rw [Arena.upd_same] at ho; cases ho
  · intro m q hm hq hqs
    rw [hcsup]
    rw [hS.parent] at hq
    rw [hslot] at hqs
    by_cases h1 : m = n
    · rw [if_pos h1] at hq; cases hq
    · rw [if_neg h1] at hq
      by_cases h2 : m = S.arena.next
      · rw [if_pos h2] at hq; cases hq; exact absurd hqs hs
      · rw [if_neg h2] at hq
        have hm := hm.resolve_right h2
        rw [hf m (hlt m hm)]
        exact h.root m q hm hq hqs
  · intro m hm hr hq
    by_cases h2 : m = S.arena.next
    · subst h2
      have := hq p (by rw [hS.parent, if_neg (by omega), if_pos rfl])
      rw [hslot] at this; exact absurd this hs
    · have hm := hm.resolve_right h2
      rw [hf m (hlt m hm), hD.parent]
      by_cases h1 : m = n
      · rw [if_pos (by rw [h1])]
      · have := hflt m hm
        rw [if_neg (fun e => h1 (h.inj _ _ hm hn e)), if_neg (by omega)]
        refine h.free m hm hr ?_
        intro q hq'
        rw [← hslot]
        exact hq q (by rw [hS.parent, if_neg h1, if_neg h2, hq'])
  · exact .inl h.rootT
  · obtain ⟨q, hq, hqs⟩ := h.rootS
    refine ⟨q, ?_, (hslot q).2 hqs⟩
    rw [hS.parent, if_neg (Ne.symm hnr), if_neg (by omega), hq]
  · intro q
    have := hflt r0 h.rootT
    rw [hf r0 hr0, hDout _ this (fun e => hnr (h.inj _ _ hn h.rootT e.symm))]
    exact h.rootp q
  · rintro m (hm | rfl)
    · have := hflt m hm
      rw [hf m (hlt m hm), hK m (hlt m hm), hD.data, if_neg (by omega)]; exact h.data m hm
    · rw [hfx, hD.data, if_pos rfl, Arena.upd_same]; rfl
  · rw [hD.next]; omega
  · exact h.out_lt
  · exact h.outp
  · rintro m (hm | rfl)
    · rw [hf m (hlt m hm)]; exact h.tout m hm
    · rw [hfx]; intro ho; have := h.out_lt _ ho; omega
  · intro m s
    have hfp := hflt p hTp
    rw [hD.data, hD.children]
    by_cases e : m = D.next
    · intro _
      rw [if_neg (by omega), e]; exact h.dwf.children_ge (Nat.le_refl _)
    · rw [if_neg e]
      intro hs'
      have h1 := h.dleaf m s hs'
      by_cases e2 : m = f p
      · subst e2
        rw [← h.dwf.mem_iff, h1] at hdp; cases hdp
      · rw [if_neg e2, h1]
  · intro m ho
    have := h.out_lt _ ho
    obtain ⟨h1, h2, h3⟩ := h.frame m ho
    refine ⟨?_, ?_, ?_⟩
    · rw [hDout m (by omega) (by rintro rfl; exact h.tout n hn ho), h1]
    · rw [hD.children, if_neg (by rintro rfl; exact h.tout p hTp ho), h2]
    · rw [hD.data, if_neg (by omega), h3]

/-- A slot root other than `r0` leaves its slot in the shadow tree; nothing happens in the
document. -/
theorem unslot (h : Sim r0 Out J D0 S D slots f T K) {S' : Shadow} {n p : Nat}
    (hn : T n) (hnr : n ≠ r0) (hp : S.arena.parent n = some p) (hs : S.IsSlot p)
    (hS : S.Unslot S' n p) : Sim r0 Out J D0 S' D slots f T K := by
  have hpT : ¬ T p := fun hT => (h.t_ns p hT).2 hs
  have hslot : ∀ m, S'.IsSlot m ↔ S.IsSlot m := by
    intro m
    simp only [Shadow.IsSlot, hS.super, hS.parent]
    by_cases h1 : m = n
    · subst h1; simp only [if_true]
      constructor
      · intro e; cases e
      · intro e; exact absurd e (h.t_ns m hn).2
    · rw [if_neg h1]
  have hcsup : S'.arena.children S'.superRoot = S.arena.children S.superRoot := by
    rw [hS.super, hS.children, if_neg (Ne.symm (h.shape.slot_ne hs))]
  have hch : ∀ m, T m → S'.arena.children m = S.arena.children m := by
    intro m hm; rw [hS.children, if_neg (by rintro rfl; exact hpT hm)]
  refine { h with
    shape := hS.shape, t_lt := ?_, t_ns := ?_, down := ?_, up := ?_, kids := ?_, root := ?_
    free := ?_, rootS := ?_ }
  · rw [hS.next]; exact h.t_lt
  · intro m hm; rw [hslot, hS.super]; exact h.t_ns m hm
  · intro m c hm ho hc; rw [hch m hm] at hc; exact h.down m c hm ho hc
  · intro m q hm hq
    rw [hS.parent] at hq
    rw [hslot]
    by_cases h1 : m = n
    · rw [if_pos h1] at hq; cases hq
    · rw [if_neg h1] at hq; exact h.up m q hm hq
  · intro m hm; rw [hch m hm]; exact h.kids m hm
  · intro m q hm hq hqs
    rw [hS.parent] at hq
    rw [hslot] at hqs
    rw [hcsup]
    by_cases h1 : m = n
    · rw [if_pos h1] at hq; cases hq
    · rw [if_neg h1] at hq; exact h.root m q hm hq hqs
  · intro m hm hr hq
    by_cases h1 : m = n
    · subst h1
      refine h.free m hm hr ?_
      intro q hq'; rw [hp] at hq'; cases hq'; exact hs
    · refine h.free m hm hr ?_
      intro q hq'
      rw [← hslot]; exact hq q (by rw [hS.parent, if_neg h1, hq'])
  · obtain ⟨q, hq, hqs⟩ := h.rootS
    exact ⟨q, by rw [hS.parent, if_neg (Ne.symm hnr), hq], (hslot q).2 hqs⟩

/-- A slot root other than `r0` is replaced in its slot in the shadow tree only. -/
theorem replSlot (h : Sim r0 Out J D0 S D slots f T K) {S' : Shadow} {n p : Nat}
    (hn : T n) (hnr : n ≠ r0) (hp : S.arena.parent n = some p) (hs : S.IsSlot p)
    (hS : S.Repl S' n p) : Sim r0 Out J D0 S' D slots f T K := by
  have hpT : ¬ T p := fun hT => (h.t_ns p hT).2 hs
  have hlt := h.t_lt
  have hslot : ∀ m, m < S.arena.next → (S'.IsSlot m ↔ S.IsSlot m) := by
    intro m hm
    simp only [Shadow.IsSlot, hS.super, hS.parent]
    by_cases h1 : m = n
    · subst h1; simp only [if_true]
      constructor
      · intro e; cases e
      · intro e; exact absurd e (h.t_ns m hn).2
    · rw [if_neg h1, if_neg (by omega)]
  have hcsup : S'.arena.children S'.superRoot = S.arena.children S.superRoot := by
    rw [hS.super, hS.children, if_neg (Ne.symm (h.shape.slot_ne hs))]
  have hch : ∀ m, T m → S'.arena.children m = S.arena.children m := by
    intro m hm; rw [hS.children, if_neg (by rintro rfl; exact hpT hm)]
  have hpar : ∀ m, T m → m ≠ n → S'.arena.parent m = S.arena.parent m := by
    intro m hm h1
    have := hlt m hm
    rw [hS.parent, if_neg h1, if_neg (by omega)]
  have hparn : S'.arena.parent n = none := by rw [hS.parent, if_pos rfl]
  have hplt : ∀ m q, S.arena.parent m = some q → q < S.arena.next := fun m q hq =>
    (h.shape.wf.lt_of_parent _ _ hq).2
  refine { h with
    shape := hS.shape, t_lt := ?_, t_ns := ?_, down := ?_, up := ?_, kids := ?_, root := ?_
    free := ?_, rootS := ?_ }
  · intro m hm; have := hlt m hm; rw [hS.next]; omega
  · intro m hm; rw [hslot m (hlt m hm), hS.super]; exact h.t_ns m hm
  · intro m c hm ho hc; rw [hch m hm] at hc; exact h.down m c hm ho hc
  · intro m q hm hq
    by_cases h1 : m = n
    · rw [h1, hparn] at hq; cases hq
    · rw [hpar m hm h1] at hq
      rw [hslot q (hplt _ _ hq)]; exact h.up m q hm hq
  · intro m hm; rw [hch m hm]; exact h.kids m hm
  · intro m q hm hq hqs
    rw [hcsup]
    by_cases h1 : m = n
    · rw [h1, hparn] at hq; cases hq
    · rw [hpar m hm h1] at hq
      rw [hslot q (hplt _ _ hq)] at hqs; exact h.root m q hm hq hqs
  · intro m hm hr hq
    by_cases h1 : m = n
    · subst h1
      refine h.free m hm hr ?_
      intro q hq'; rw [hp] at hq'; cases hq'; exact hs
    · refine h.free m hm hr ?_
      intro q hq'
      rw [← hslot q (hplt _ _ hq')]; exact hq q (by rw [hpar m hm h1, hq'])
  · obtain ⟨q, hq, hqs⟩ := h.rootS
    exact ⟨q, by rw [hpar _ h.rootT (Ne.symm hnr), hq], (hslot q (hplt _ _ hq)).2 hqs⟩

/-- Placing a tracked parentless node where another node is. -/
theorem put (h : Sim r0 Out J D0 S D slots f T K) {S' : Shadow} {D' : Arena NodeData}
    {x p pos occ : Nat} (hx : T x) (hp : T p) (hpo : (K p).2 = none)
    (hxp : S.arena.parent x = none)
    (hS : S.Put S' x p pos occ) (hD : DPut D D' (f x) (f p) pos (f occ)) :
    Sim r0 Out J D0 S' D' (Arena.upd slots S.nextSlot (some (f occ))) f T K := by
  have hw := h.shape.wf
  have hlt := h.t_lt
  have hflt := h.f_lt
  have hsl := h.shape.super_lt
  have hmem : occ ∈ S.arena.children p := List.mem_of_getElem? hS.at_
  have hop : S.arena.parent occ = some p := (hw.mem_iff _ _).1 hmem
  have hoT : T occ := h.down p occ hp hpo hmem
  have hps : ¬ S.IsSlot p := (h.t_ns p hp).2
  obtain ⟨hposlt, hoe⟩ := List.getElem?_eq_some_iff.1 hS.at_
  obtain ⟨qr, hqr, hqrs⟩ := h.rootS
  have hor : occ ≠ r0 := by rintro rfl; rw [hop] at hqr; cases hqr; exact hps hqrs
  have hxr : x ≠ r0 := by rintro rfl; rw [hxp] at hqr; cases hqr
  have hxo : x ≠ occ := by rintro rfl; rw [hxp] at hop; cases hop
  have hdx : D.parent (f x) = none := h.free x hx hxr (by intro q hq; rw [hxp] at hq; cases hq)
  have hslot : ∀ m, m < S.arena.next → (S'.IsSlot m ↔ S.IsSlot m) := by
    intro m hm
    simp only [Shadow.IsSlot, hS.super, hS.parent]
    rw [if_neg (by omega)]
    by_cases h1 : m = occ
    · subst h1
      rw [if_pos rfl]
      constructor
      · intro e; injection e with e; omega
      · intro e; exact absurd e (h.t_ns m hoT).2
    · rw [if_neg h1]
      by_cases h2 : m = x
      · subst h2
        rw [if_pos rfl]
        constructor
        · intro e; injection e with e; exact absurd e (h.t_ns p hp).1
        · intro e; exact absurd e (h.t_ns m hx).2
      · rw [if_neg h2]
  have hslotN : S'.IsSlot S.arena.next := by
    simp only [Shadow.IsSlot, hS.super, hS.parent, if_true]
  have hcsup : S'.arena.children S'.superRoot = S.arena.children S.superRoot ++ [S.arena.next] := by
    rw [hS.super, hS.children, if_neg (by omega), if_pos rfl]
  have hpar : ∀ m, T m → m ≠ occ → m ≠ x → S'.arena.parent m = S.arena.parent m := by
    intro m hm h1 h2
    have := hlt m hm
    rw [hS.parent, if_neg (by omega), if_neg h1, if_neg h2]
  have hparo : S'.arena.parent occ = some S.arena.next := by
    have := hlt occ hoT
    rw [hS.parent, if_neg (by omega), if_pos rfl]
  have hparx : S'.arena.parent x = some p := by
    have := hlt x hx
    rw [hS.parent, if_neg (by omega), if_neg hxo, if_pos rfl]
  have hch : ∀ m, T m → S'.arena.children m =
      if m = p then (S.arena.children p).set pos x else S.arena.children m := by
    intro m hm
    have := hlt m hm
    rw [hS.children, if_neg (by omega), if_neg (h.t_ns m hm).1]
  have hplt : ∀ m q, S.arena.parent m = some q → q < S.arena.next := fun m q hq =>
    (hw.lt_of_parent _ _ hq).2
  -- document parents
  have hnew : ∀ y q, y ≠ f x → D'.parent y = some q → D.parent y = some q := by
    intro y q hy hq
    rw [← hD.wf.mem_iff, hD.children] at hq
    rw [← h.dwf.mem_iff]
    by_cases h1 : q = f p
    · rw [if_pos h1] at hq
      rw [h1]
      rcases List.mem_or_eq_of_mem_set hq with h2 | h2
      · exact h2
      · exact absurd h2 hy
    · rw [if_neg h1] at hq; exact hq
  have hold : ∀ y q, q ≠ f p → D.parent y = some q → D'.parent y = some q := by
    intro y q h1 hq
    rw [← hD.wf.mem_iff, hD.children, if_neg h1, h.dwf.mem_iff]; exact hq
  have hnd := h.dwf.nodup (f p)
  have hdocc : D'.parent (f occ) = none := by
    cases hq : D'.parent (f occ) with
    | none => rfl
    | some q =>
      have hfo : f occ ≠ f x := fun e => hxo (h.inj _ _ hx hoT e.symm)
      have h1 := hnew _ q hfo hq
      have h2 : D.parent (f occ) = some (f p) := (h.dwf.mem_iff _ _).1 (List.mem_of_getElem? hD.at_)
      rw [h2] at h1; cases h1
      rw [← hD.wf.mem_iff, hD.children, if_pos rfl] at hq
      obtain ⟨hpl, hpe⟩ := List.getElem?_eq_some_iff.1 hD.at_
      obtain ⟨i, hi⟩ := List.mem_iff_getElem?.1 hq
      by_cases hne : pos = i
      · rw [← hne, List.getElem?_set_self hpl] at hi
        injection hi with hi; exact absurd hi.symm hfo
      · rw [List.getElem?_set_ne hne] at hi
        exact absurd (List.nodup_getElem?_inj hnd hD.at_ hi) hne
  refine { h with
    shape := hS.shape, dwf := hD.wf, t_lt := ?_, t_ns := ?_, f_lt := ?_, down := ?_, up := ?_
    kids := ?_, body := ?_, root := ?_, free := ?_, rootS := ?_, rootp := ?_, data := ?_, next_le := ?_
    dleaf := ?_, frame := ?_ }
  · intro m hm; have := hlt m hm; rw [hS.next]; omega
  · intro m hm; rw [hslot m (hlt m hm), hS.super]; exact h.t_ns m hm
  · intro m hm; rw [hD.next]; exact hflt m hm
  · intro m c hm ho hc
    rw [hch m hm] at hc
    by_cases h1 : m = p
    · rw [if_pos h1] at hc
      rcases List.mem_or_eq_of_mem_set hc with h2 | h2
      · exact h.down p c hp hpo h2
      · rw [h2]; exact hx
    · rw [if_neg h1] at hc; exact h.down m c hm ho hc
  · intro m q hm hq
    by_cases h1 : m = occ
    · rw [h1, hparo] at hq; cases hq; exact .inr hslotN
    · by_cases h2 : m = x
      · rw [h2, hparx] at hq; cases hq; exact .inl ⟨hp, hpo⟩
      · rw [hpar m hm h1 h2] at hq
        rw [hslot q (hplt _ _ hq)]; exact h.up m q hm hq
  · intro m hm ho
    obtain ⟨junk, hk, hj⟩ := h.kids m hm ho
    refine ⟨junk, ?_, fun j hjm => by rw [hD.data]; exact hj j hjm⟩
    rw [hD.children, hch m hm]
    by_cases h1 : m = p
    · subst h1
      rw [if_pos rfl, if_pos rfl, hk, List.set_append_left _ _ (by simpa using hposlt),
        List.map_set]
    · rw [if_neg h1, if_neg (fun e => h1 (h.inj _ _ hm hp e)), hk]
  · intro m c hm ho
    refine h.body_keep hD.wf hm ho ?_ ?_
    · intro y _ hy; rw [hD.children, if_neg (hy p hp hpo)]
    · intro y _ _; rw [hD.data]
  · intro m q hm hq hqs
    rw [hcsup]
    by_cases h1 : m = occ
    · rw [h1, hparo] at hq
      cases hq
      have hni : S.arena.next ∉ S.arena.children S.superRoot := by
        intro hm'
        have := (hw.lt_of_parent _ _ ((hw.mem_iff _ _).1 hm')).1
        omega
      have : Arena.posIn (S.arena.children S.superRoot ++ [S.arena.next]) S.arena.next = S.nextSlot := by
        rw [← h.shape.slots_len]
        simp [Arena.posIn, List.idxOf_append, hni]
      rw [this, Arena.upd_same, h1]
    · by_cases h2 : m = x
      · rw [h2, hparx] at hq; cases hq
        rw [hslot p (hlt p hp)] at hqs; exact absurd hqs hps
      · rw [hpar m hm h1 h2] at hq
        rw [hslot q (hplt _ _ hq)] at hqs
        have hqm := h.shape.slot_mem hqs
        rw [Shadow.posIn_append hqm, Arena.upd_ne]
        · exact h.root m q hm hq hqs
        · rw [Arena.posIn, if_pos hqm, ← h.shape.slots_len]
          exact Nat.ne_of_lt (List.idxOf_lt_length_of_mem hqm)
  · intro m hm hr hq
    by_cases h1 : m = occ
    · rw [h1]; exact hdocc
    · by_cases h2 : m = x
      · subst h2
        have := hq p hparx
        rw [hslot p (hlt p hp)] at this; exact absurd this hps
      · have h3 : D.parent (f m) = none := by
          refine h.free m hm hr ?_
          intro q hq'
          rw [← hslot q (hplt _ _ hq')]; exact hq q (by rw [hpar m hm h1 h2, hq'])
        cases hq' : D'.parent (f m) with
        | none => rfl
        | some q =>
          rw [hnew _ q (fun e => h2 (h.inj _ _ hm hx e)) hq'] at h3; cases h3
  · exact ⟨qr, by rw [hpar _ h.rootT (Ne.symm hor) (Ne.symm hxr), hqr],
      (hslot qr (hplt _ _ hqr)).2 hqrs⟩
  · intro q hq
    exact h.rootp q (hnew _ q (fun e => hxr (h.inj _ _ hx h.rootT e.symm)) hq)
  · intro m hm; rw [hD.data]; exact h.data m hm
  · rw [hD.next]; exact h.next_le
  · intro m s
    rw [hD.data, hD.children]
    intro hs'
    have h1 := h.dleaf m s hs'
    by_cases e2 : m = f p
    · subst e2
      have := List.mem_of_getElem? hD.at_
      rw [h1] at this; cases this
    · rw [if_neg e2, h1]
  · intro m ho
    obtain ⟨h1, h2, h3⟩ := h.frame m ho
    refine ⟨?_, ?_, by rw [hD.data, h3]⟩
    · have hne : m ≠ f x := by rintro rfl; exact h.tout x hx ho
      rw [← h1]
      cases hq : D.parent m with
      | none =>
        cases hq' : D'.parent m with
        | none => rfl
        | some q => rw [hnew m q hne hq'] at hq; cases hq
      | some q =>
        apply hold m q _ hq
        rintro rfl
        exact h.junk_not_out hp ((h.dwf.mem_iff _ _).2 hq) ho
    · rw [hD.children, if_neg (by rintro rfl; exact h.tout p hp ho), h2]

/-- Placing a tracked parentless node after the last child. The new nodes that fill the gap in the
shadow tree correspond to the first surplus empty text nodes of the document. -/
theorem app (h : Sim r0 Out J D0 S D slots f T K) {S' : Shadow} {D' : Arena NodeData}
    {x p pos : Nat} (hx : T x) (hp : T p) (hpo : (K p).2 = none)
    (hxp : S.arena.parent x = none)
    (hpk : ∀ s, (K p).1 ≠ .text s) (hS : S.App S' x p pos) (hD : DApp D D' (f x) (f p) pos) :
    ∃ f', (∀ m, m < S.arena.next → f' m = f m) ∧
      Sim r0 Out J D0 S' D' slots f' (fun m => T m ∨ (S.arena.next ≤ m ∧ m < S'.arena.next))
        (fun m => if S.arena.next ≤ m then (.text [], none) else K m) := by
  have hw := h.shape.wf
  have hlt := h.t_lt
  have hflt := h.f_lt
  have hsl := h.shape.super_lt
  have hnl := h.next_le
  have hps : ¬ S.IsSlot p := (h.t_ns p hp).2
  obtain ⟨qr, hqr, hqrs⟩ := h.rootS
  have hxr : x ≠ r0 := by rintro rfl; rw [hxp] at hqr; cases hqr
  have hdx : D.parent (f x) = none := h.free x hx hxr (by intro q hq; rw [hxp] at hq; cases hq)
  obtain ⟨junk, hk, hj⟩ := h.kids p hp hpo
  obtain ⟨rest, hrest, hDc⟩ := hD.children
  -- the nodes that the gap nodes are mapped to
  generalize hcs : S.arena.children p = cs at *
  have hle : cs.length ≤ pos := by rw [← hcs]; exact hS.le
  generalize hkd : pos - cs.length = k at *
  have hSn : S'.arena.next = S.arena.next + k := by rw [hS.next, hcs, hkd]
  have hDn : D'.next = D.next + (k - junk.length) := by
    rw [hD.next, hk]; simp; omega
  have hg : ∃ g : List Nat, g.length = k ∧ g.Nodup ∧
      (∀ y ∈ g, (y ∈ junk ∨ (D.next ≤ y ∧ y < D'.next))) ∧
      D'.children (f p) = cs.map f ++ g ++ f x :: rest := by
    refine ⟨junk.take k ++ List.range' D.next (k - junk.length), ?_, ?_, ?_, ?_⟩
    · simp; omega
    · rw [List.nodup_append]
      have hnd := h.dwf.nodup (f p)
      rw [hk, List.nodup_append] at hnd
      refine ⟨hnd.2.1.sublist (List.take_sublist _ _), List.nodup_range', ?_⟩
      intro a ha b hb
      have h1 : a ∈ D.children (f p) := by
        rw [hk]; exact List.mem_append_right _ (List.mem_of_mem_take ha)
      have h2 := (h.dwf.lt_of_parent _ _ ((h.dwf.mem_iff _ _).1 h1)).1
      rw [List.mem_range'_1] at hb
      omega
    · intro y hy
      rw [List.mem_append, List.mem_range'_1] at hy
      rcases hy with hy | hy
      · exact .inl (List.mem_of_mem_take hy)
      · exact .inr ⟨hy.1, by omega⟩
    · rw [hDc, hk, List.take_append, List.take_of_length_le (by simpa using hle)]
      simp only [List.length_append, List.length_map, List.append_assoc]
      rw [show pos - cs.length = k from hkd,
        show pos - (cs.length + junk.length) = k - junk.length by omega]
  have hrestj : ∀ y ∈ rest, y ∈ junk := by
    intro y hy
    have := hrest.subset hy
    rw [hk, List.drop_append, List.drop_of_length_le (by simpa using hle)] at this
    simp only [List.nil_append] at this
    exact List.mem_of_mem_drop this
  obtain ⟨g, hgl, hgnd, hgm, hDc'⟩ := hg
  clear hDc
  let f' : Nat → Nat := fun m => if S.arena.next ≤ m then (g[m - S.arena.next]?).getD 0 else f m
  have hf : ∀ m, m < S.arena.next → f' m = f m := by
    intro m hm; simp only [f']; rw [if_neg (by omega)]
  have hfg : ∀ m, S.arena.next ≤ m → m < S'.arena.next → g[m - S.arena.next]? = some (f' m) := by
    intro m h1 h2
    simp only [f', if_pos h1]
    have : m - S.arena.next < g.length := by omega
    rw [List.getElem?_eq_getElem this]; rfl
  have hfgm : ∀ m, S.arena.next ≤ m → m < S'.arena.next → f' m ∈ g := fun m h1 h2 =>
    List.mem_of_getElem? (hfg m h1 h2)
  have hfmap : (List.range' S.arena.next k).map f' = g := by
    apply List.ext_getElem?
    intro i
    rw [List.getElem?_map]
    by_cases hi : i < k
    · rw [List.getElem?_range' hi]
      have := hfg (S.arena.next + i) (by omega) (by omega)
      rw [show S.arena.next + i - S.arena.next = i by omega] at this
      simp only [Nat.one_mul, Option.map_some]
      exact this.symm
    · rw [List.getElem?_eq_none (by simp; omega), List.getElem?_eq_none (by omega)]; rfl
  have hjl : ∀ j ∈ junk, j < D.next := by
    intro j hjm
    exact (h.dwf.lt_of_parent _ _ ((h.dwf.mem_iff _ _).1
      (by rw [hk]; exact List.mem_append_right _ hjm : j ∈ D.children (f p)))).1
  have hgdata : ∀ y ∈ g, (D'.data y).kind = .text [] := by
    intro y hy
    rw [hD.data]
    rcases hgm y hy with h1 | h1
    · have := hjl y h1
      rw [if_neg (by omega)]; exact (hj y h1).1
    · rw [if_pos h1]; rfl
  have hgT : ∀ y ∈ g, ∀ m, T m → y ≠ f m := by
    intro y hy m hm
    rcases hgm y hy with h1 | h1
    · exact h.junk_not_f hp (by rw [hk, hcs]) h1 hm
    · have := hflt m hm; omega
  have hglt : ∀ y ∈ g, y < D'.next := by
    intro y hy
    rcases hgm y hy with h1 | h1
    · have := hjl y h1; omega
    · exact h1.2
  have hDdata : ∀ y, y < D.next → D'.data y = D.data y := by
    intro y hy; rw [hD.data, if_neg (by omega)]
  have hxlt := hlt x hx
  have hplt' := hlt p hp
  -- shadow facts
  have hslot : ∀ m, S'.IsSlot m ↔ S.IsSlot m := by
    intro m
    simp only [Shadow.IsSlot, hS.super, hS.parent]
    by_cases h1 : m = x
    · subst h1
      rw [if_pos rfl]
      constructor
      · intro e; injection e with e; exact absurd e (h.t_ns p hp).1
      · intro e; exact absurd e (h.t_ns m hx).2
    · rw [if_neg h1]
      by_cases h2 : S.arena.next ≤ m ∧ m < S'.arena.next
      · rw [if_pos h2, hw.parent_ge h2.1]
        constructor
        · intro e; injection e with e; exact absurd e (h.t_ns p hp).1
        · intro e; cases e
      · rw [if_neg h2]
  have hcsup : S'.arena.children S'.superRoot = S.arena.children S.superRoot := by
    rw [hS.super, hS.children, if_neg (Ne.symm (h.t_ns p hp).1)]
  have hpar : ∀ m, m < S.arena.next → m ≠ x → S'.arena.parent m = S.arena.parent m := by
    intro m hm h1
    rw [hS.parent, if_neg h1, if_neg (by omega)]
  have hparx : S'.arena.parent x = some p := by rw [hS.parent, if_pos rfl]
  have hparg : ∀ m, S.arena.next ≤ m → m < S'.arena.next → S'.arena.parent m = some p := by
    intro m h1 h2
    rw [hS.parent, if_neg (by omega), if_pos ⟨h1, h2⟩]
  -- document parents
  have hnew : ∀ y q, y ≠ f x → y < D.next → D'.parent y = some q → D.parent y = some q := by
    intro y q hy hylt hq
    rw [← hD.wf.mem_iff] at hq
    rw [← h.dwf.mem_iff]
    by_cases h1 : q = f p
    · subst h1
      rw [hDc', List.mem_append, List.mem_append, List.mem_cons] at hq
      rw [hk, List.mem_append]
      rcases hq with (h2 | h2) | h2 | h2
      · exact .inl h2
      · rcases hgm y h2 with h3 | h3
        · exact .inr h3
        · omega
      · exact absurd h2 hy
      · exact .inr (hrestj y h2)
    · rw [hD.children_ne q h1] at hq; exact hq
  have hold : ∀ y q, q ≠ f p → D.parent y = some q → D'.parent y = some q := by
    intro y q h1 hq
    rw [← hD.wf.mem_iff, hD.children_ne q h1, h.dwf.mem_iff]; exact hq
  have hK : ∀ m, T m → (if S.arena.next ≤ m then (.text [], none) else K m : Mark) = K m := by
    intro m hm
    have := hlt m hm
    rw [if_neg (by omega)]
  refine ⟨f', hf, ?_⟩
  constructor
  · exact hS.shape
  · exact hD.wf
  · rintro m (hm | hm)
    · have := hlt m hm; omega
    · exact hm.2
  · rintro m (hm | hm)
    · rw [hslot, hS.super]; exact h.t_ns m hm
    · rw [hslot, hS.super]
      exact ⟨by omega, by rw [Shadow.IsSlot, hw.parent_ge hm.1]; simp⟩
  · rintro m (hm | hm)
    · rw [hf m (hlt m hm)]; have := hflt m hm; omega
    · exact hglt _ (hfgm m hm.1 hm.2)
  · rintro a b (ha | ha) (hb | hb)
    · rw [hf a (hlt a ha), hf b (hlt b hb)]; exact h.inj a b ha hb
    · rw [hf a (hlt a ha)]; intro e; exact absurd e.symm (hgT _ (hfgm b hb.1 hb.2) a ha)
    · rw [hf b (hlt b hb)]; intro e; exact absurd e (hgT _ (hfgm a ha.1 ha.2) b hb)
    · intro e
      have h1 := hfg a ha.1 ha.2
      have h2 := hfg b hb.1 hb.2
      rw [e] at h1
      have := List.nodup_getElem?_inj hgnd h1 h2
      omega
  · intro m c hm ho hc
    rw [hS.children] at hc
    by_cases h1 : m = p
    · rw [if_pos h1, hcs, hkd, List.mem_append, List.mem_append, List.mem_range'_1] at hc
      rcases hc with (hc | hc) | hc
      · exact .inl (h.down p c hp hpo (by rw [hcs]; exact hc))
      · exact .inr (by omega)
      · simp at hc; rw [hc]; exact .inl hx
    · rw [if_neg h1] at hc
      rcases hm with hm | hm
      · rw [hK m hm] at ho; exact .inl (h.down m c hm ho hc)
      · rw [hw.children_ge hm.1] at hc; cases hc
  · intro m q hm hq
    by_cases h1 : m = x
    · rw [h1, hparx] at hq; cases hq; exact .inl ⟨.inl hp, by rw [hK p hp]; exact hpo⟩
    · rcases hm with hm | hm
      · rw [hpar m (hlt m hm) h1] at hq
        rw [hslot]
        rcases h.up m q hm hq with h2 | h2
        · exact .inl ⟨.inl h2.1, by rw [hK _ h2.1]; exact h2.2⟩
        · exact .inr h2
      · rw [hparg m hm.1 hm.2] at hq; cases hq; exact .inl ⟨.inl hp, by rw [hK p hp]; exact hpo⟩
  · rintro m (hm | hm) ho
    · rw [hK m hm] at ho
      rw [hf m (hlt m hm), hS.children]
      by_cases h1 : m = p
      · subst h1
        rw [if_pos rfl, hcs, hkd]
        refine ⟨rest, ?_, ?_⟩
        · rw [hDc', List.map_append, List.map_append, hfmap, List.map_cons, List.map_nil,
            hf x hxlt, ← hcs, h.map_congr hf]
          simp
        · intro y hy
          rw [hDdata y (hjl y (hrestj y hy))]; exact hj y (hrestj y hy)
      · obtain ⟨junk2, hk2, hj2⟩ := h.kids m hm ho
        rw [if_neg h1, hD.children_ne _ (fun e => h1 (h.inj _ _ hm hp e)), h.map_congr hf]
        refine ⟨junk2, hk2, ?_⟩
        intro y hy
        have hyl : y < D.next := (h.dwf.lt_of_parent _ _ ((h.dwf.mem_iff _ _).1
          (by rw [hk2]; exact List.mem_append_right _ hy : y ∈ D.children (f m)))).1
        rw [hDdata y hyl]; exact hj2 y hy
    · -- gap nodes
      have hne : f' m ≠ f p := hgT _ (hfgm m hm.1 hm.2) p hp
      rw [hS.children, if_neg (by omega), hw.children_ge hm.1, hD.children_ne _ hne]
      refine ⟨[], ?_, by simp⟩
      rcases hgm _ (hfgm m hm.1 hm.2) with h1 | h1
      · exact h.dleaf _ [] (hj _ h1).1
      · exact h.dwf.children_ge h1.1
  · rintro m c (hm | hm) ho
    · rw [hK m hm] at ho
      rw [hf m (hlt m hm)]
      refine h.body_keep hD.wf hm ho ?_ ?_
      · intro y _ hy; exact hD.children_ne y (hy p hp hpo)
      · intro y hy _; rw [hDdata y hy]
    · rw [if_pos hm.1] at ho; cases ho
  · intro m q hm hq hqs
    rw [hcsup]
    rw [hslot] at hqs
    by_cases h1 : m = x
    · rw [h1, hparx] at hq; cases hq; exact absurd hqs hps
    · rcases hm with hm | hm
      · rw [hpar m (hlt m hm) h1] at hq
        rw [hf m (hlt m hm)]; exact h.root m q hm hq hqs
      · rw [hparg m hm.1 hm.2] at hq; cases hq; exact absurd hqs hps
  · intro m hm hr hq
    by_cases h1 : m = x
    · subst h1
      have := hq p hparx
      rw [hslot] at this; exact absurd this hps
    · rcases hm with hm | hm
      · rw [hf m (hlt m hm)]
        have h3 : D.parent (f m) = none := by
          refine h.free m hm hr ?_
          intro q hq'
          rw [← hslot]; exact hq q (by rw [hpar m (hlt m hm) h1, hq'])
        cases hq' : D'.parent (f m) with
        | none => rfl
        | some q =>
          rw [hnew _ q (fun e => h1 (h.inj _ _ hm hx e)) (hflt m hm) hq'] at h3; cases h3
      · have := hq p (hparg m hm.1 hm.2)
        rw [hslot] at this; exact absurd this hps
  · exact .inl h.rootT
  · exact ⟨qr, by rw [hpar _ (hlt _ h.rootT) (Ne.symm hxr), hqr], (hslot qr).2 hqrs⟩
  · intro q
    rw [hf r0 (hlt _ h.rootT)]
    intro hq
    exact h.rootp q (hnew _ q (fun e => hxr (h.inj _ _ hx h.rootT e.symm)) (hflt _ h.rootT) hq)
  · rintro m (hm | hm)
    · have h1 := hlt m hm
      have h2 := hflt m hm
      rw [hf m h1, hDdata _ h2, if_neg (by omega)]; exact h.data m hm
    · rw [if_pos hm.1]; exact hgdata _ (hfgm m hm.1 hm.2)
  · omega
  · exact h.out_lt
  · exact h.outp
  · rintro m (hm | hm)
    · rw [hf m (hlt m hm)]; exact h.tout m hm
    · rcases hgm _ (hfgm m hm.1 hm.2) with h1 | h1
      · exact h.junk_not_out hp (by rw [hk]; exact List.mem_append_right _ h1)
      · intro ho; have := h.out_lt _ ho; omega
  · intro m s
    rw [hD.data]
    have hfp := hflt p hp
    by_cases e : D.next ≤ m ∧ m < D'.next
    · intro _
      rw [hD.children_ne _ (by omega)]; exact h.dwf.children_ge e.1
    · rw [if_neg e]
      intro hs'
      rw [hD.children_ne _ (by rintro rfl; rw [h.data p hp] at hs'; exact hpk s hs')]
      exact h.dleaf m s hs'
  · intro m ho
    obtain ⟨h1, h2, h3⟩ := h.frame m ho
    have hml := h.out_lt m ho
    refine ⟨?_, ?_, by rw [hDdata _ (by omega), h3]⟩
    · have hne : m ≠ f x := by rintro rfl; exact h.tout x hx ho
      rw [← h1]
      cases hq : D.parent m with
      | none =>
        cases hq' : D'.parent m with
        | none => rfl
        | some q => rw [hnew m q hne (by omega) hq'] at hq; cases hq
      | some q =>
        apply hold m q _ hq
        rintro rfl
        exact h.junk_not_out hp ((h.dwf.mem_iff _ _).2 hq) ho
    · rw [hD.children_ne _ (by rintro rfl; exact h.tout p hp ho), h2]

end Sim
end Hotmeal
