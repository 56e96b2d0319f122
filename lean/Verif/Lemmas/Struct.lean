import Verif.Lemmas.Sim

set_option autoImplicit false

/-!
# Structure of the shadow tree during the conversion of an edit script
-/

namespace Hotmeal

/-- The data of a conversion: number of nodes of the old tree, those not inside opaque elements
(`Old`), those whose children are not inside opaque elements (`Open`), parents of the old tree,
matched pairs, new tree, and the content of the opaque elements of the new tree (`body`; for matched
elements this is the content that the old element has). -/
structure Ctx where
  nA : Nat
  Old : Nat → Prop
  Open : Nat → Prop
  parA : Nat → Option Nat
  pairs : List (Nat × Nat)
  B : Arena TData
  body : Nat → Option (List Html)

/-- Nodes that take part: old nodes not yet deleted and inserted nodes. -/
def Ctx.Real (X : Ctx) (bts : Nat → Option Nat) (Ins Del : Nat → Prop) (n : Nat) : Prop :=
  (X.Old n ∧ ¬ Del n) ∨ ∃ b, Ins b ∧ bts b = some n

/-- Node `b` of the new tree has its final place in the shadow tree. -/
def Ctx.AtPlace (X : Ctx) (S : Shadow) (bts : Nat → Option Nat) (b : Nat) : Prop :=
  ∃ pb n np, X.B.parent b = some pb ∧ bts b = some n ∧ bts pb = some np ∧
    S.arena.parent n = some np ∧
    (S.arena.children np)[Arena.posIn (X.B.children pb) b]? = some n

/-- `Ins`: inserted so far, `Del`: deleted so far, `Set`: nodes of the new tree known to be at
their final place, `hole`: the node that is detached at the moment. -/
structure Struct (X : Ctx) (S : Shadow) (bts : Nat → Option Nat) (Ins Del Set hole : Nat → Prop) :
    Prop where
  shape : S.Shape
  nA_le : X.nA ≤ S.arena.next
  bts_pair : ∀ a b, (a, b) ∈ X.pairs → bts b = some a
  bts_cases : ∀ b n, bts b = some n → (n, b) ∈ X.pairs ∨ (Ins b ∧ X.nA ≤ n)
  ins_bts : ∀ b, Ins b → ∃ n, bts b = some n ∧ X.nA ≤ n
  inj : ∀ b b' n, bts b = some n → bts b' = some n → b = b'
  old_lt : ∀ a, X.Old a → a < X.nA
  pair_lt : ∀ a b, (a, b) ∈ X.pairs → X.Old a
  del : ∀ a, Del a → X.Old a ∧ (∀ b, (a, b) ∉ X.pairs) ∧ S.arena.parent a = none
  ns : ∀ n, X.Real bts Ins Del n → n < S.arena.next ∧ n ≠ S.superRoot ∧ ¬ S.IsSlot n
  up : ∀ n, X.Real bts Ins Del n → ¬ hole n →
    ∃ p, S.arena.parent n = some p ∧ (X.Real bts Ins Del p ∨ S.IsSlot p)
  hole_none : ∀ n, hole n → S.arena.parent n = none
  settled : ∀ b, Set b → X.AtPlace S bts b
  unm : ∀ n, X.Old n → ¬ Del n → (∀ b, (n, b) ∉ X.pairs) →
    ∃ p, S.arena.parent n = some p ∧ (S.IsSlot p ∨ X.parA n = some p)
  edge : ∀ n p, X.Real bts Ins Del n → S.arena.parent n = some p → S.IsSlot p ∨
    X.parA n = some p ∨ ∃ b pb, bts b = some n ∧ bts pb = some p ∧ X.B.parent b = some pb

theorem posIn_inj {l : List Nat} {x y : Nat} (hx : x ∈ l) (hy : y ∈ l)
    (h : Arena.posIn l x = Arena.posIn l y) : x = y := by
  simp only [Arena.posIn, if_pos hx, if_pos hy] at h
  have h1 := List.getElem?_eq_getElem (List.idxOf_lt_length_of_mem hx)
  have h2 := List.getElem?_eq_getElem (List.idxOf_lt_length_of_mem hy)
  simp only [List.getElem_idxOf] at h1 h2
  rw [h, h2] at h1
  injection h1 with h1
  exact h1.symm

namespace Struct

variable {X : Ctx} {S S' : Shadow} {bts : Nat → Option Nat} {Ins Del Set hole : Nat → Prop}

theorem matched_real (h : Struct X S bts Ins Del Set hole) {a b : Nat} (hab : (a, b) ∈ X.pairs) :
    X.Real bts Ins Del a :=
  .inl ⟨h.pair_lt a b hab, fun hd => (h.del a hd).2.1 b hab⟩

theorem bts_real (h : Struct X S bts Ins Del Set hole) {n b : Nat} (hb : bts b = some n) :
    X.Real bts Ins Del n := by
  rcases h.bts_cases b n hb with h1 | ⟨h1, _⟩
  · exact h.matched_real h1
  · exact .inr ⟨b, h1, hb⟩

/-- Everything that takes part is reachable from the super root. -/
theorem isPath (h : Struct X S bts Ins Del Set (fun _ => False)) {n : Nat}
    (hn : X.Real bts Ins Del n) : S.IsPath n (S.computePath n) :=
  Shadow.exists_isPath h.shape.wf (fun m hm => h.up m hm (fun e => e)) n hn

/-- Common part of the steps: `x` becomes the hole or is deleted, other old nodes keep their
parents, and the entries of child lists other than `x` stay where they are. -/
theorem drop (h : Struct X S bts Ins Del Set (fun _ => False)) {x p : Nat}
    (hxr : X.Real bts Ins Del x) (hx : ∀ b, bts b = some x → ¬ Set b)
    (hp : S.arena.parent x = some p) (hsh : S'.Shape) (hsup : S'.superRoot = S.superRoot)
    (hnx : S.arena.next ≤ S'.arena.next)
    (hpar : ∀ m, m < S.arena.next → S'.arena.parent m = if m = x then none else S.arena.parent m)
    (hch : ∀ (m i c : Nat), m < S.arena.next → ¬ S.IsSlot m → (S.arena.children m)[i]? = some c → c ≠ x →
      (S'.arena.children m)[i]? = some c)
    (Del' hole' : Nat → Prop) (hdd : ∀ n, Del' n ↔ Del n ∨ (n = x ∧ ¬ hole' n))
    (hh : ∀ n, hole' n → n = x)
    (hdx : ¬ hole' x → X.Old x ∧ ∀ b, (x, b) ∉ X.pairs)
    (hdr : ¬ hole' x → ∀ n, X.Real bts Ins Del n → S.arena.parent n ≠ some x)
    (hum : hole' x → ∃ b, bts b = some x) :
    Struct X S' bts Ins Del' Set hole' := by
  have hslot : ∀ m, m < S.arena.next → (S'.IsSlot m ↔ S.IsSlot m) := by
    intro m hm
    simp only [Shadow.IsSlot, hsup, hpar m hm]
    by_cases h1 : m = x
    · subst h1
      simp only [if_true]
      constructor
      · intro e; cases e
      · intro e; exact absurd e (h.ns m hxr).2.2
    · rw [if_neg h1]
  have hreal : ∀ n, X.Real bts Ins Del' n → X.Real bts Ins Del n := by
    rintro n (⟨h1, h2⟩ | h1)
    · exact .inl ⟨h1, fun hd => h2 ((hdd n).2 (.inl hd))⟩
    · exact .inr h1
  have hreal' : ∀ n, X.Real bts Ins Del n → n ≠ x ∨ hole' n → X.Real bts Ins Del' n := by
    rintro n (⟨h1, h2⟩ | h1) hne
    · refine .inl ⟨h1, fun hd => ?_⟩
      rcases (hdd n).1 hd with h3 | ⟨h3, h4⟩
      · exact h2 h3
      · exact hne.elim (fun e => e h3) h4
    · exact .inr h1
  have hplt : ∀ m q, S.arena.parent m = some q → m < S.arena.next ∧ q < S.arena.next := fun m q hq =>
    h.shape.wf.lt_of_parent _ _ hq
  refine { h with
    shape := hsh
    nA_le := Nat.le_trans h.nA_le hnx
    del := ?_, ns := ?_, up := ?_, hole_none := ?_, settled := ?_, unm := ?_, edge := ?_ }
  · intro a ha
    rcases (hdd a).1 ha with h1 | ⟨rfl, h1⟩
    · obtain ⟨h2, h3, h4⟩ := h.del a h1
      refine ⟨h2, h3, ?_⟩
      rw [hpar a (Nat.lt_of_lt_of_le (h.old_lt a h2) h.nA_le), h4]; simp
    · refine ⟨(hdx h1).1, (hdx h1).2, ?_⟩
      rw [hpar a (h.ns a hxr).1]; simp
  · intro n hn
    obtain ⟨h1, h2, h3⟩ := h.ns n (hreal n hn)
    exact ⟨Nat.lt_of_lt_of_le h1 hnx, by rw [hsup]; exact h2, fun e => h3 ((hslot n h1).1 e)⟩
  · intro n hn hnh
    have hn0 := hreal n hn
    obtain ⟨q, hq, hqr⟩ := h.up n hn0 (fun e => e)
    have hne : n ≠ x := by
      rintro rfl
      rcases hn with ⟨h1, h2⟩ | ⟨b, h1, h2⟩
      · exact h2 ((hdd n).2 (.inr ⟨rfl, hnh⟩))
      · have h3 := hdx hnh
        rcases h.bts_cases b n h2 with h4 | ⟨_, h4⟩
        · exact h3.2 b h4
        · have := h.old_lt _ h3.1; omega
    refine ⟨q, ?_, ?_⟩
    · rw [hpar n (hplt _ _ hq).1, if_neg hne, hq]
    · rcases hqr with h1 | h1
      · refine .inl (hreal' q h1 ?_)
        by_cases e : q = x
        · subst e
          refine .inr (Classical.byContradiction fun e => ?_)
          exact hdr e n hn0 hq
        · exact .inl e
      · exact .inr ((hslot q (hplt _ _ hq).2).2 h1)
  · intro n hn
    rw [hh n hn, hpar x (h.ns x hxr).1]; simp
  · intro b hb
    obtain ⟨pb, n, np, h1, h2, h3, h4, h5⟩ := h.settled b hb
    have hne : n ≠ x := by rintro rfl; exact hx b h2 hb
    refine ⟨pb, n, np, h1, h2, h3, ?_, ?_⟩
    · rw [hpar n (hplt _ _ h4).1, if_neg hne, h4]
    · exact hch np _ n (hplt _ _ h4).2 (h.ns np (h.bts_real h3)).2.2 h5 hne
  · intro n h1 h2 h3
    have hd : ¬ Del n := fun e => h2 ((hdd n).2 (.inl e))
    obtain ⟨q, hq, h4⟩ := h.unm n h1 hd h3
    have hne : n ≠ x := by
      rintro rfl
      by_cases e : hole' n
      · obtain ⟨b, hb⟩ := hum e
        rcases h.bts_cases b n hb with h5 | ⟨_, h5⟩
        · exact h3 b h5
        · have := h.old_lt _ h1; omega
      · exact h2 ((hdd n).2 (.inr ⟨rfl, e⟩))
    refine ⟨q, ?_, ?_⟩
    · rw [hpar n (hplt _ _ hq).1, if_neg hne, hq]
    · exact h4.imp (fun e => (hslot q (hplt _ _ hq).2).2 e) (fun e => e)
  · intro n q hn hq
    have hn0 := hreal n hn
    rw [hpar n (h.ns n hn0).1] at hq
    by_cases e : n = x
    · rw [if_pos e] at hq; cases hq
    · rw [if_neg e] at hq
      exact (h.edge n q hn0 hq).imp (fun e => (hslot q (hplt _ _ hq).2).2 e) (fun e => e)

theorem repl_keep {n p : Nat} (hS : S.Repl S' n p) :
    (∀ m, m < S.arena.next → S'.arena.parent m = if m = n then none else S.arena.parent m) ∧
    (∀ (m i c : Nat), m < S.arena.next → ¬ S.IsSlot m → (S.arena.children m)[i]? = some c → c ≠ n →
      (S'.arena.children m)[i]? = some c) := by
  constructor
  · intro m hm
    rw [hS.parent]
    by_cases h1 : m = n
    · rw [if_pos h1, if_pos h1]
    · rw [if_neg h1, if_neg h1, if_neg (by omega)]
  · intro m i c hm _ hc hne
    rw [hS.children]
    by_cases h1 : m = p
    · subst h1
      rw [if_pos rfl, Arena.swapIn_getElem?, hc]
      simp [hne]
    · rw [if_neg h1, hc]

theorem unslot_keep {n p : Nat} (hs : S.IsSlot p) (hS : S.Unslot S' n p) :
    (∀ m, m < S.arena.next → S'.arena.parent m = if m = n then none else S.arena.parent m) ∧
    (∀ (m i c : Nat), m < S.arena.next → ¬ S.IsSlot m → (S.arena.children m)[i]? = some c → c ≠ n →
      (S'.arena.children m)[i]? = some c) := by
  constructor
  · intro m _
    rw [hS.parent]
  · intro m i c _ hns hc _
    rw [hS.children, if_neg (by rintro rfl; exact hns hs), hc]

/-- Detaching a matched node that is not at its final place. -/
theorem repl (h : Struct X S bts Ins Del Set (fun _ => False)) {x b p : Nat}
    (hx : bts b = some x) (hb : ¬ Set b) (hp : S.arena.parent x = some p)
    (hS : S.Repl S' x p) : Struct X S' bts Ins Del Set (fun n => n = x) := by
  obtain ⟨h1, h2⟩ := repl_keep hS
  refine h.drop (h.bts_real hx) ?_ hp hS.shape hS.super (by rw [hS.next]; omega) h1 h2 Del _
    (by intro n; simp) (fun n e => e) (fun e => absurd rfl e) (fun e => absurd rfl e)
    (fun _ => ⟨b, hx⟩)
  intro b' hb'
  rw [h.inj b' b x hb' hx]
  exact hb

theorem unslot (h : Struct X S bts Ins Del Set (fun _ => False)) {x b p : Nat}
    (hx : bts b = some x) (hb : ¬ Set b) (hp : S.arena.parent x = some p) (hs : S.IsSlot p)
    (hS : S.Unslot S' x p) : Struct X S' bts Ins Del Set (fun n => n = x) := by
  obtain ⟨h1, h2⟩ := unslot_keep hs hS
  refine h.drop (h.bts_real hx) ?_ hp hS.shape hS.super (by rw [hS.next]; omega) h1 h2 Del _
    (by intro n; simp) (fun n e => e) (fun e => absurd rfl e) (fun e => absurd rfl e)
    (fun _ => ⟨b, hx⟩)
  intro b' hb'
  rw [h.inj b' b x hb' hx]
  exact hb

/-- Deleting an unmatched node without participating children. -/
theorem delete (h : Struct X S bts Ins Del Set (fun _ => False)) {x p : Nat}
    (hx : X.Old x) (hd : ¬ Del x) (hum : ∀ b, (x, b) ∉ X.pairs)
    (hleaf : ∀ n, X.Real bts Ins Del n → S.arena.parent n ≠ some x)
    (hp : S.arena.parent x = some p) (hS : S.Repl S' x p) :
    Struct X S' bts Ins (fun n => Del n ∨ n = x) Set (fun _ => False) := by
  obtain ⟨h1, h2⟩ := repl_keep hS
  refine h.drop (.inl ⟨hx, hd⟩) ?_ hp hS.shape hS.super (by rw [hS.next]; omega) h1 h2 _ _
    (by intro n; simp) (fun n e => e.elim) (fun _ => ⟨hx, hum⟩) (fun _ => hleaf)
    (fun e => e.elim)
  intro b hb
  rcases h.bts_cases b x hb with h5 | ⟨_, h5⟩
  · exact absurd h5 (hum b)
  · have := h.old_lt _ hx; omega

/-- Creating the shadow node of an inserted node. -/
theorem create (h : Struct X S bts Ins Del Set (fun _ => False)) {b : Nat} (t : TData)
    (hb : bts b = none) (hbs : ¬ Set b) :
    Struct X { S with arena := (S.arena.newNode t).1 } (Arena.upd bts b (some S.arena.next))
      (fun n => Ins n ∨ n = b) Del Set (fun n => n = S.arena.next) := by
  have hw := h.shape.wf
  have hnp : ∀ m, (S.arena.newNode t).1.parent m = S.arena.parent m := fun m => hw.newNode_parent t m
  have hnc : ∀ m, (S.arena.newNode t).1.children m = S.arena.children m := fun m =>
    hw.newNode_children t m
  have hub : ∀ b' n, bts b' = some n → Arena.upd bts b (some S.arena.next) b' = some n := by
    intro b' n hn
    rw [Arena.upd_ne]; exact hn
    rintro rfl; rw [hb] at hn; cases hn
  have hub' : ∀ b' n, Arena.upd bts b (some S.arena.next) b' = some n →
      (b' = b ∧ n = S.arena.next) ∨ (b' ≠ b ∧ bts b' = some n) := by
    intro b' n hn
    by_cases e : b' = b
    · subst e; rw [Arena.upd_same] at hn; cases hn; exact .inl ⟨rfl, rfl⟩
    · rw [Arena.upd_ne _ _ e] at hn; exact .inr ⟨e, hn⟩
  have hblt : ∀ b' n, bts b' = some n → n < S.arena.next := fun b' n hn => (h.ns n (h.bts_real hn)).1
  have hsl : ∀ m, Shadow.IsSlot { S with arena := (S.arena.newNode t).1 } m ↔ S.IsSlot m := by
    intro m; simp only [Shadow.IsSlot, hnp]
  have hreal : ∀ n, X.Real (Arena.upd bts b (some S.arena.next)) (fun n => Ins n ∨ n = b) Del n ↔
      X.Real bts Ins Del n ∨ n = S.arena.next := by
    intro n
    constructor
    · rintro (h1 | ⟨b', h1, h2⟩)
      · exact .inl (.inl h1)
      · rcases hub' b' n h2 with ⟨_, h3⟩ | ⟨h3, h4⟩
        · exact .inr h3
        · exact .inl (.inr ⟨b', h1.resolve_right h3, h4⟩)
    · rintro ((h1 | ⟨b', h1, h2⟩) | h1)
      · exact .inl h1
      · exact .inr ⟨b', .inl h1, hub b' n h2⟩
      · exact .inr ⟨b, .inr rfl, by rw [Arena.upd_same, h1]⟩
  refine ⟨⟨hw.newNode t, ?_, ?_, ?_⟩, ?_, ?_, ?_, ?_, ?_, h.old_lt, h.pair_lt, ?_, ?_, ?_, ?_, ?_, ?_, ?_⟩
  · exact Nat.lt_succ_of_lt h.shape.super_lt
  · exact (hnp _).trans h.shape.super_none
  · show ((S.arena.newNode t).1.children S.superRoot).length = S.nextSlot
    rw [hnc]; exact h.shape.slots_len
  · exact Nat.le_succ_of_le h.nA_le
  · intro a b' hab; exact hub b' a (h.bts_pair a b' hab)
  · intro b' n hn
    rcases hub' b' n hn with ⟨h1, h2⟩ | ⟨_, h1⟩
    · exact .inr ⟨.inr h1, by rw [h2]; exact h.nA_le⟩
    · exact (h.bts_cases b' n h1).imp (fun e => e) (fun ⟨e, e'⟩ => ⟨.inl e, e'⟩)
  · rintro b' (h1 | rfl)
    · obtain ⟨n, hn, hle⟩ := h.ins_bts b' h1
      exact ⟨n, hub b' n hn, hle⟩
    · exact ⟨_, Arena.upd_same _ _ _, h.nA_le⟩
  · intro b1 b2 n h1 h2
    rcases hub' b1 n h1 with ⟨e1, e2⟩ | ⟨_, e1⟩ <;> rcases hub' b2 n h2 with ⟨e3, e4⟩ | ⟨_, e3⟩
    · rw [e1, e3]
    · have := hblt _ _ e3; omega
    · have := hblt _ _ e1; omega
    · exact h.inj _ _ _ e1 e3
  · intro a ha
    obtain ⟨h1, h2, h3⟩ := h.del a ha
    exact ⟨h1, h2, (hnp a).trans h3⟩
  · intro n hn
    rcases (hreal n).1 hn with h1 | rfl
    · obtain ⟨h2, h3, h4⟩ := h.ns n h1
      exact ⟨Nat.lt_succ_of_lt h2, h3, fun e => h4 ((hsl n).1 e)⟩
    · refine ⟨Nat.lt_succ_self _, Nat.ne_of_gt h.shape.super_lt, fun e => ?_⟩
      have h1 := (hsl _).1 e
      have := (hw.lt_of_parent _ _ h1).1
      omega
  · intro n hn hne
    rcases (hreal n).1 hn with h1 | rfl
    · obtain ⟨p, hp, h2⟩ := h.up n h1 (fun e => e)
      exact ⟨p, (hnp n).trans hp, h2.imp (fun e => (hreal p).2 (.inl e)) (fun e => (hsl p).2 e)⟩
    · exact absurd rfl hne
  · rintro n rfl
    exact (hnp _).trans (hw.parent_ge (Nat.le_refl _))
  · intro b' hb'
    obtain ⟨pb, n, np, h1, h2, h3, h4, h5⟩ := h.settled b' hb'
    refine ⟨pb, n, np, h1, hub _ _ h2, hub _ _ h3, (hnp n).trans h4, ?_⟩
    show ((S.arena.newNode t).1.children np)[_]? = _
    rw [hnc]; exact h5
  · intro n h1 h2 h3
    obtain ⟨p, hp, h4⟩ := h.unm n h1 h2 h3
    exact ⟨p, (hnp n).trans hp, h4.imp (fun e => (hsl p).2 e) (fun e => e)⟩
  · intro n p hn hp
    have hp : S.arena.parent n = some p := (hnp n).symm.trans hp
    rcases (hreal n).1 hn with h1 | rfl
    · refine (h.edge n p h1 hp).imp (fun e => (hsl p).2 e) (fun e => e.imp (fun e => e) ?_)
      rintro ⟨b', pb, e1, e2, e3⟩
      exact ⟨b', pb, hub _ _ e1, hub _ _ e2, e3⟩
    · rw [hw.parent_ge (Nat.le_refl _)] at hp; cases hp

/-- Placing the hole at its final place. -/
theorem place (h : Struct X S bts Ins Del Set hole) (hB : X.B.WF) {x b pb sp : Nat}
    {slot : Option Nat} (hx : bts b = some x) (hsp : bts pb = some sp)
    (hpb : X.B.parent b = some pb) (hhole : ∀ n, hole n ↔ n = x)
    (hS : S.Placed S' x sp (Arena.posIn (X.B.children pb) b) slot) :
    Struct X S' bts Ins Del (fun n => Set n ∨ n = b) (fun _ => False) := by
  have hw := h.shape.wf
  have hxr := h.bts_real hx
  have hspr := h.bts_real hsp
  have hxn : S.arena.parent x = none := h.hole_none x ((hhole x).2 rfl)
  have hlt : ∀ n, X.Real bts Ins Del n → n < S.arena.next := fun n hn => (h.ns n hn).1
  have hplt : ∀ m q, S.arena.parent m = some q → m < S.arena.next ∧ q < S.arena.next := fun m q hq =>
    hw.lt_of_parent _ _ hq
  have hbm : b ∈ X.B.children pb := (hB.mem_iff _ _).2 hpb
  -- summary of both ways of placing
  have key : S'.Shape ∧ S'.superRoot = S.superRoot ∧ S.arena.next ≤ S'.arena.next ∧
      (∀ m, m < S.arena.next → (S'.IsSlot m ↔ S.IsSlot m)) ∧
      S'.arena.parent x = some sp ∧
      (S'.arena.children sp)[Arena.posIn (X.B.children pb) b]? = some x ∧
      (∀ m, m < S.arena.next → m ≠ x → S'.arena.parent m = S.arena.parent m ∨
        ((S.arena.children sp)[Arena.posIn (X.B.children pb) b]? = some m ∧
          ∃ q, S'.arena.parent m = some q ∧ S'.IsSlot q)) ∧
      (∀ (m i c : Nat), m < S.arena.next → m ≠ S.superRoot → (S.arena.children m)[i]? = some c →
        (m ≠ sp ∨ i ≠ Arena.posIn (X.B.children pb) b) → (S'.arena.children m)[i]? = some c) := by
    have hsps := h.ns sp hspr
    have hxs := h.ns x hxr
    rcases hS with ⟨occ, hS, -⟩ | ⟨hS, -⟩
    · have hoccp : S.arena.parent occ = some sp := (hw.mem_iff _ _).1 (List.mem_of_getElem? hS.at_)
      have hol := (hplt _ _ hoccp).1
      have hxo : x ≠ occ := by rintro rfl; rw [hxn] at hoccp; cases hoccp
      have hlen := (List.getElem?_eq_some_iff.1 hS.at_).1
      refine ⟨hS.shape, hS.super, by rw [hS.next]; omega, ?_, ?_, ?_, ?_, ?_⟩
      · intro m hm
        simp only [Shadow.IsSlot, hS.super, hS.parent, if_neg (Nat.ne_of_lt hm)]
        by_cases h1 : m = occ
        · subst h1
          rw [if_pos rfl, hoccp]
          constructor
          · intro e; injection e with e; have := h.shape.super_lt; omega
          · intro e; injection e with e; exact absurd e hsps.2.1
        · rw [if_neg h1]
          by_cases h2 : m = x
          · subst h2
            rw [if_pos rfl, hxn]
            constructor
            · intro e; injection e with e; exact absurd e hsps.2.1
            · intro e; cases e
          · rw [if_neg h2]
      · rw [hS.parent, if_neg (by omega), if_neg hxo, if_pos rfl]
      · rw [hS.children, if_neg (by omega), if_neg hsps.2.1, if_pos rfl,
          List.getElem?_set_self hlen]
      · intro m hm hmx
        by_cases h1 : m = occ
        · subst h1
          refine .inr ⟨hS.at_, S.arena.next, ?_, ?_⟩
          · rw [hS.parent, if_neg (by omega), if_pos rfl]
          · simp only [Shadow.IsSlot, hS.super, hS.parent, if_true]
        · refine .inl ?_
          rw [hS.parent, if_neg (by omega), if_neg h1, if_neg hmx]
      · intro m i c hm hms hc hor
        rw [hS.children, if_neg (by omega), if_neg hms]
        by_cases h1 : m = sp
        · subst h1
          rw [if_pos rfl, List.getElem?_set_ne (Ne.symm (hor.resolve_left (fun e => e rfl))), hc]
        · rw [if_neg h1, hc]
    · refine ⟨hS.shape, hS.super, by rw [hS.next]; omega, ?_, ?_, ?_, ?_, ?_⟩
      · intro m hm
        simp only [Shadow.IsSlot, hS.super, hS.parent]
        by_cases h2 : m = x
        · subst h2
          rw [if_pos rfl, hxn]
          constructor
          · intro e; injection e with e; exact absurd e hsps.2.1
          · intro e; cases e
        · rw [if_neg h2, if_neg (by omega)]
      · rw [hS.parent, if_pos rfl]
      · have hle := hS.le
        rw [hS.children, if_pos rfl, List.getElem?_append_right (by simp; omega)]
        simp only [List.length_append, List.length_range']
        rw [show Arena.posIn (X.B.children pb) b - ((S.arena.children sp).length +
          (Arena.posIn (X.B.children pb) b - (S.arena.children sp).length)) = 0 by omega]
        rfl
      · intro m hm hmx
        refine .inl ?_
        rw [hS.parent, if_neg hmx, if_neg (by omega)]
      · intro m i c hm hms hc _
        rw [hS.children]
        by_cases h1 : m = sp
        · subst h1
          have := (List.getElem?_eq_some_iff.1 hc).1
          rw [if_pos rfl, List.append_assoc, List.getElem?_append_left this, hc]
        · rw [if_neg h1, hc]
  obtain ⟨hsh, hsup, hnx, hslot, hxp', hat, hpar, hch⟩ := key
  refine { h with
    shape := hsh
    nA_le := Nat.le_trans h.nA_le hnx
    del := ?_, ns := ?_, up := ?_, hole_none := fun _ e => e.elim, settled := ?_, unm := ?_,
    edge := ?_ }
  · intro a ha
    obtain ⟨h1, h2, h3⟩ := h.del a ha
    have h1' := h.old_lt _ h1
    have hal := Nat.lt_of_lt_of_le h1' h.nA_le
    have hax : a ≠ x := by
      rintro rfl
      rcases h.bts_cases b a hx with h4 | ⟨_, h4⟩
      · exact h2 b h4
      · omega
    refine ⟨h1, h2, ?_⟩
    rcases hpar a hal hax with h4 | ⟨h4, _⟩
    · rw [h4, h3]
    · have := (hw.mem_iff _ _).1 (List.mem_of_getElem? h4)
      rw [h3] at this; cases this
  · intro n hn
    obtain ⟨h1, h2, h3⟩ := h.ns n hn
    exact ⟨Nat.lt_of_lt_of_le h1 hnx, by rw [hsup]; exact h2, fun e => h3 ((hslot n h1).1 e)⟩
  · intro n hn _
    by_cases e : n = x
    · subst e; exact ⟨sp, hxp', .inl hspr⟩
    · obtain ⟨q, hq, h1⟩ := h.up n hn (fun e' => e ((hhole n).1 e'))
      rcases hpar n (hlt n hn) e with h2 | ⟨_, q', h2, h3⟩
      · exact ⟨q, h2.trans hq, h1.imp (fun e => e) (fun e => (hslot q (hplt _ _ hq).2).2 e)⟩
      · exact ⟨q', h2, .inr h3⟩
  · rintro b' (hb' | rfl)
    · obtain ⟨pb', n, np, h1, h2, h3, h4, h5⟩ := h.settled b' hb'
      have hnx' : n ≠ x := by rintro rfl; rw [hxn] at h4; cases h4
      have hbb : b' ≠ b := by rintro rfl; rw [hx] at h2; cases h2; exact hnx' rfl
      have hdiff : np ≠ sp ∨ Arena.posIn (X.B.children pb') b' ≠ Arena.posIn (X.B.children pb) b := by
        by_cases e : np = sp
        · subst e
          have e2 := h.inj _ _ _ h3 hsp
          subst e2
          exact .inr fun e3 => hbb (posIn_inj ((hB.mem_iff _ _).2 h1) hbm e3)
        · exact .inl e
      refine ⟨pb', n, np, h1, h2, h3, ?_, ?_⟩
      · rcases hpar n (hplt _ _ h4).1 hnx' with h6 | ⟨h6, _⟩
        · rw [h6, h4]
        · have h7 := (hw.mem_iff _ _).1 (List.mem_of_getElem? h6)
          rw [h4] at h7; injection h7 with h7
          subst h7
          exact absurd (List.nodup_getElem?_inj (hw.nodup _) h5 h6)
            (hdiff.resolve_left (fun e => e rfl))
      · exact hch np _ n (hplt _ _ h4).2 (h.ns np (h.bts_real h3)).2.1 h5 hdiff
    · exact ⟨pb, x, sp, hpb, hx, hsp, hxp', hat⟩
  · intro n h1 h2 h3
    obtain ⟨q, hq, h4⟩ := h.unm n h1 h2 h3
    have hne : n ≠ x := by rintro rfl; rw [hxn] at hq; cases hq
    rcases hpar n (hplt _ _ hq).1 hne with h5 | ⟨_, q', h5, h6⟩
    · exact ⟨q, h5.trans hq, h4.imp (fun e => (hslot q (hplt _ _ hq).2).2 e) (fun e => e)⟩
    · exact ⟨q', h5, .inl h6⟩
  · intro n q hn hq
    by_cases e : n = x
    · subst e
      rw [hxp'] at hq; cases hq
      exact .inr (.inr ⟨b, pb, hx, hsp, hpb⟩)
    · rcases hpar n (hlt n hn) e with h2 | ⟨_, q', h2, h3⟩
      · rw [h2] at hq
        exact (h.edge n q hn hq).imp (fun e => (hslot q (hplt _ _ hq).2).2 e) (fun e => e)
      · rw [h2] at hq; cases hq; exact .inl h3

end Struct
end Hotmeal
