import Verif.Lemmas.Path
import Verif.Lemmas.ConvertLoop
import Verif.Lemmas.Html
import Verif.Lemmas.Same
import Verif.Lemmas.Stay
import Verif.Props.Slots

set_option autoImplicit false
set_option linter.unusedSectionVars false

/-!
# Conversion of insertions that only append, and of deletions
-/

namespace Hotmeal

/-- One insertion for every node of a tree: a node before its children, siblings from left to right. -/
def Html.plantings (at_ : Path) : Html → List Patch
  | .element tag attrs cs => .insertElement at_ tag attrs [] none :: go at_ 0 cs
  | .text s => [.insertText at_ s none]
  | .comment s => [.insertComment at_ s none]
  | .document => []
where
  go (at_ : Path) (i : Nat) : List Html → List Patch
    | [] => []
    | c :: cs => plantings (at_ ++ [i]) c ++ go at_ (i + 1) cs

/-- The insertions for trees that become children number `i`, `i + 1`, ... of a node. -/
abbrev Html.plantingsL (at_ : Path) (i : Nat) (cs : List Html) : List Patch := Html.plantings.go at_ i cs

/-- The Insert of a node. -/
def insOp (B : Arena TData) (b : Nat) : EditOp :=
  .insert b ((B.parent b).getD 0) (match B.parent b with
    | some p => Arena.posIn (B.children p) b
    | none => 0) (B.data b).kind

/-- `S'` is `S` with `k` new last children of `p`, and what is below them. -/
structure Budded (S S' : Shadow) (p k : Nat) : Prop where
  wf : S'.arena.WF
  super : S'.superRoot = S.superRoot
  next : S.arena.next ≤ S'.arena.next
  parent : ∀ m, m < S.arena.next → S'.arena.parent m = S.arena.parent m
  kids : ∀ m, m < S.arena.next → m ≠ p → S'.arena.children m = S.arena.children m
  here : ∃ l, S'.arena.children p = S.arena.children p ++ l ∧ l.length = k

namespace Budded

variable {S S' S'' : Shadow} {p k : Nat}

theorem path (hw : S.arena.WF) (h : Budded S S' p k) {n : Nat} {q : Path} (hq : S.IsPath n q) :
    S'.IsPath n q := by
  refine hq.congr h.super ?_
  intro m r hm hr
  obtain ⟨h1, h2⟩ := hw.lt_of_parent _ _ hr
  refine ⟨by rw [h.parent m h1, hr], by rw [h.parent r h2], ?_⟩
  by_cases e : r = p
  · subst e
    obtain ⟨l, hl, _⟩ := h.here
    rw [hl, Shadow.posIn_append ((hw.mem_iff _ _).2 hr)]
  · rw [h.kids r h2 e]

theorem refl (hw : S.arena.WF) : Budded S S p 0 :=
  ⟨hw, rfl, Nat.le_refl _, fun _ _ => rfl, fun _ _ _ => rfl, [], by simp⟩

theorem trans {j : Nat} (h : Budded S S' p j) (h' : Budded S' S'' p k) : Budded S S'' p (j + k) := by
  refine ⟨h'.wf, h'.super.trans h.super, Nat.le_trans h.next h'.next, ?_, ?_, ?_⟩
  · intro m hm
    rw [h'.parent m (Nat.lt_of_lt_of_le hm h.next), h.parent m hm]
  · intro m hm e
    rw [h'.kids m (Nat.lt_of_lt_of_le hm h.next) e, h.kids m hm e]
  · obtain ⟨l, h1, h2⟩ := h.here
    obtain ⟨l', h3, h4⟩ := h'.here
    exact ⟨l ++ l', by rw [h3, h1, List.append_assoc], by rw [List.length_append, h2, h4]⟩

/-- Growth below a node that is new. -/
theorem below {c j : Nat} (h : Budded S S' p k) (hp : p < S.arena.next) (hc : S.arena.next ≤ c)
    (h' : Budded S' S'' c j) : Budded S S'' p k := by
  refine ⟨h'.wf, h'.super.trans h.super, Nat.le_trans h.next h'.next, ?_, ?_, ?_⟩
  · intro m hm
    rw [h'.parent m (Nat.lt_of_lt_of_le hm h.next), h.parent m hm]
  · intro m hm e
    rw [h'.kids m (Nat.lt_of_lt_of_le hm h.next) (by omega), h.kids m hm e]
  · obtain ⟨l, h1, h2⟩ := h.here
    exact ⟨l, by rw [h'.kids p (Nat.lt_of_lt_of_le hp h.next) (by omega), h1], h2⟩

end Budded

/-- Where the children of `pb` go. -/
structure Ground (S : Shadow) (bts : Nat → Option Nat) (pb sp : Nat) (at_ : Path) : Prop where
  wf : S.arena.WF
  sup : S.superRoot < S.arena.next
  maps : bts pb = some sp
  path : S.IsPath sp at_
  noslot : ¬ S.IsSlot sp
  nosup : sp ≠ S.superRoot

variable {B : Arena TData} {D : Arena NodeData}

theorem convertLoop_two {ins : List Nat} {C C1 C2 : Conv} {l r : List EditOp} {ps qs : List Patch}
    (h1 : convertLoop B ins C l = .ok (C1, ps)) (h2 : convertLoop B ins C1 r = .ok (C2, qs)) :
    convertLoop B ins C (l ++ r) = .ok (C2, ps ++ qs) := by
  induction l generalizing C ps with
  | nil => cases h1; exact h2
  | cons op l ih =>
    obtain ⟨⟨C3, p3⟩, h3, h1⟩ := res_bind h1
    obtain ⟨⟨C4, p4⟩, h4, h1⟩ := res_bind h1
    cases h1
    show (convertOp B ins C op >>= fun x => convertLoop B ins x.1 (l ++ r) >>= fun y => .ok (y.1, x.2 ++ y.2)) = _
    rw [h3]
    show (convertLoop B ins C3 (l ++ r) >>= fun y => .ok (y.1, p3 ++ y.2)) = _
    rw [ih h4, List.append_assoc]
    rfl

theorem extractChildren_nil {skip : Nat → Bool} {b : Nat} (hB : B.WF) (h : ∀ c ∈ B.children b, skip c = true) :
    extractChildren B skip b = [] := by
  unfold extractChildren
  rw [List.filterMap_eq_nil_iff]
  intro c hc
  rw [hB.fold_eq]
  simp [extractAlg, h c hc]

/-- Growth below a node. -/
def Plants (B : Arena TData) (D : Arena NodeData) (ins : List Nat) (b : Nat) : Prop :=
  ∀ (S : Shadow) (bts : Nat → Option Nat) (pb sp i : Nat) (at_ : Path), Ground S bts pb sp at_ →
    B.parent b = some pb → (B.children pb)[i]? = some b → (S.arena.children sp).length = i →
    (∀ c ∈ B.descendants b, c ∈ ins) →
    ∃ S' bts', convertLoop B ins ⟨S, bts⟩ ((B.descendants b).map (insOp B)) =
        .ok (⟨S', bts'⟩, (D.tree b).plantings (at_ ++ [i])) ∧
      Budded S S' sp 1 ∧ ∀ m, ¬ B.Anc b m → bts' m = bts m

theorem plants_list (hB : B.WF) {ins : List Nat} {pb : Nat} : ∀ (cs : List Nat) (pre : List Nat),
    B.children pb = pre ++ cs → (∀ c ∈ cs, Plants B D ins c) → ∀ (S : Shadow) (bts : Nat → Option Nat) (sp : Nat)
      (at_ : Path), Ground S bts pb sp at_ → (S.arena.children sp).length = pre.length →
    (∀ c ∈ cs, ∀ n ∈ B.descendants c, n ∈ ins) →
    ∃ S' bts', convertLoop B ins ⟨S, bts⟩ ((cs.flatMap B.descendants).map (insOp B)) =
        .ok (⟨S', bts'⟩, Html.plantingsL at_ pre.length (cs.map D.tree)) ∧
      Budded S S' sp cs.length ∧ ∀ m, (∀ c ∈ cs, ¬ B.Anc c m) → bts' m = bts m := by
  intro cs
  induction cs with
  | nil =>
    intro pre _ _ S bts sp at_ hg _ _
    exact ⟨S, bts, rfl, .refl hg.wf, fun _ _ => rfl⟩
  | cons c cs ih =>
    intro pre he hc S bts sp at_ hg hlen hins
    have hi : (B.children pb)[pre.length]? = some c := by rw [he]; simp
    have hp : B.parent c = some pb := (hB.mem_iff _ _).1 (List.mem_of_getElem? hi)
    obtain ⟨S1, bts1, e1, g1, f1⟩ := hc c (by simp) S bts pb sp pre.length at_ hg hp hi hlen
      (hins c (by simp))
    have hg1 : Ground S1 bts1 pb sp at_ := by
      refine ⟨g1.wf, by rw [g1.super]; exact Nat.lt_of_lt_of_le hg.sup g1.next, ?_, g1.path hg.wf hg.path, ?_, ?_⟩
      · rw [f1 pb, hg.maps]
        exact not_anc_parent hB hp
      · unfold Shadow.IsSlot
        rw [g1.super, g1.parent sp (hg.path.lt hg.wf)]
        exact hg.noslot
      · rw [g1.super]; exact hg.nosup
    obtain ⟨S2, bts2, e2, g2, f2⟩ := ih (pre ++ [c]) (by rw [he]; simp) (fun d hd => hc d (by simp [hd])) S1 bts1
      sp at_ hg1 (by
        obtain ⟨l, h1, h2⟩ := g1.here
        rw [h1, List.length_append, hlen, h2]; simp) (fun d hd => hins d (by simp [hd]))
    refine ⟨S2, bts2, ?_, ?_, ?_⟩
    · rw [List.flatMap_cons, List.map_append, convertLoop_two e1 e2]
      simp [Html.plantings.go]
    · rw [List.length_cons, Nat.add_comm]
      exact g1.trans g2
    · intro m hm
      rw [f2 m fun d hd => hm d (by simp [hd]), f1 m (hm c (by simp))]

theorem plants (hD : D.Sound) (hB : B.WF) (hch : ∀ n, B.children n = D.children n)
    (hpar : ∀ n, B.parent n = D.parent n)
    (hdata : ∀ n, B.data n = tdataOf (D.data n)) (ins : List Nat) (b : Nat) : Plants B D ins b := by
  induction b using hB.induct_down with
  | step b ih =>
  intro S bts pb sp i at_ hg hpb hi hlen hins
  have hsp := hg.path.lt hg.wf
  have hpos : Arena.posIn (B.children pb) b = i := posIn_getElem (hB.nodup pb) hi
  have hop : insOp B b = .insert b pb i (B.data b).kind := by
    simp only [insOp, hpb, Option.getD_some, hpos]
  generalize hd : (⟨(B.data b).kind, (B.data b).props, (B.data b).text⟩ : TData) = d
  have hchn : ∀ m, (S.arena.newNode d).1.children m = S.arena.children m := hg.wf.newNode_children d
  let S1 : Shadow := { S with arena := (S.arena.addChild sp d).1 }
  let bts1 := Arena.upd bts b (some S.arena.next)
  have hw1 : S1.arena.WF := hg.wf.addChild hsp d
  have hpar1 : ∀ m, S1.arena.parent m = _ := hg.wf.addChild_parent sp d
  have hch1 : ∀ m, S1.arena.children m = _ := hg.wf.addChild_children sp d
  have hnext1 : S1.arena.next = S.arena.next + 1 := Arena.addChild_next _ _ _
  have hfresh : S.arena.children S.arena.next = [] := by
    rw [List.eq_nil_iff_forall_not_mem]
    intro c hc
    have := (hg.wf.lt_of_parent _ _ ((hg.wf.mem_iff _ _).1 hc)).2
    omega
  have hkids1 : S1.arena.children S.arena.next = [] := by
    rw [hch1, if_neg (by omega), hfresh]
  have g1 : Budded S S1 sp 1 := by
    refine ⟨hw1, rfl, by omega, ?_, ?_, [S.arena.next], ?_, rfl⟩
    · intro m hm
      rw [hpar1, if_neg (by omega)]
    · intro m hm e
      rw [hch1, if_neg e]
    · rw [hch1, if_pos rfl]
  have hpath1 : S1.IsPath sp at_ := g1.path hg.wf hg.path
  have hconv : convertOp B ins ⟨S, bts⟩ (insOp B b) = .ok (⟨S1, bts1⟩,
      [insertPatch (at_ ++ [i]) (D.data b).kind [] none]) := by
    rw [hop]
    have hins' : Shadow.insertAtPosition { S with arena := (S.arena.newNode d).1 } sp i S.arena.next =
        .ok (S1, none) := by
      unfold Shadow.insertAtPosition
      simp only [hchn]
      rw [List.getElem?_eq_none (by omega)]
      simp only [hlen, Nat.sub_self, Shadow.fillGaps]
      rw [hg.wf.append_newNode hsp d]
      rfl
    have hext : extractChildren B (fun c =>
        (Arena.upd bts b (some (S.arena.newNode d).2) c).isSome || decide (c ∈ ins)) b = [] := by
      refine extractChildren_nil hB fun c hc => ?_
      have : c ∈ ins := hins c (by
        rw [hB.mem_descendants]
        exact .step ((hB.mem_iff _ _).1 hc) .refl)
      simp [this]
    have hat : S1.refWithPos sp i = at_ ++ [i] := by
      unfold Shadow.refWithPos
      rw [hpath1.computePath_eq hw1]
    simp only [convertOp, Conv.parentOf, hg.maps, hd]
    show (Shadow.insertAtPosition { S with arena := (S.arena.newNode d).1 } sp i S.arena.next >>= _) = _
    rw [hins']
    show Except.ok (Conv.mk S1 bts1, _) = _
    rw [hat, hext, hdata]
    have hnd := hD.nodoc b pb (by rw [← hpar]; exact hpb)
    cases hk : (D.data b).kind with
    | document => exact absurd hk hnd
    | element tag attrs => simp only [tdataOf, hk, insertPatch]
    | text t => simp only [tdataOf, hk, insertPatch, Option.getD_some]
    | comment t => simp only [tdataOf, hk, insertPatch, Option.getD_some]
  have hg1 : Ground S1 bts1 b S.arena.next (at_ ++ [i]) := by
    refine ⟨hw1, Nat.lt_of_lt_of_le hg.sup g1.next, by simp [bts1], ?_, ?_, ?_⟩
    · have : S1.arena.parent S.arena.next = some sp := by rw [hpar1, if_pos rfl]
      have hi' : Arena.posIn (S1.arena.children sp) S.arena.next = i := by
        refine posIn_getElem (hw1.nodup sp) ?_
        rw [hch1, if_pos rfl, ← hlen]
        simp
      rw [← hi']
      refine .step this ?_ hpath1
      unfold Shadow.IsSlot
      rw [hpar1, if_neg (by omega)]
      exact hg.noslot
    · unfold Shadow.IsSlot
      rw [hpar1, if_pos rfl]
      exact fun e => hg.nosup (Option.some.inj e)
    · have := hg.sup
      show S.arena.next ≠ S.superRoot
      omega
  obtain ⟨S2, bts2, e2, g2, f2⟩ := plants_list hB (D := D) (ins := ins) (pb := b) (B.children b) [] rfl
    (fun c hc => ih c hc) S1 bts1 S.arena.next (at_ ++ [i]) hg1 (by
      rw [hkids1]) (fun c hc n hn => hins n (by
        rw [hB.descendants_flatMap]
        exact List.mem_cons_of_mem _ (List.mem_flatMap.2 ⟨c, hc, hn⟩)))
  refine ⟨S2, bts2, ?_, g1.below hsp (Nat.le_refl _) g2, ?_⟩
  · rw [hB.descendants_flatMap, List.map_cons]
    show convertLoop B ins ⟨S, bts⟩ ([insOp B b] ++ _) = _
    rw [convertLoop_two (C1 := ⟨S1, bts1⟩) (ps := [insertPatch (at_ ++ [i]) (D.data b).kind [] none]) (by
      show (convertOp B ins ⟨S, bts⟩ (insOp B b) >>= _) = _
      rw [hconv]; rfl) e2, hD.wf.tree_eq]
    have hnd := hD.nodoc b pb (by rw [← hpar]; exact hpb)
    have hf : (B.children b).map D.tree = D.forest b := by rw [hch]; rfl
    rw [hf]
    cases hk : (D.data b).kind with
    | document => exact absurd hk hnd
    | element tag attrs => simp [Html.ofKind, insertPatch, Html.plantings]
    | text t =>
      have : D.forest b = [] := by unfold Arena.forest; rw [hD.leaf b (.inl ⟨t, hk⟩)]; rfl
      rw [this]
      simp [Html.ofKind, insertPatch, Html.plantings, Html.plantings.go]
    | comment t =>
      have : D.forest b = [] := by unfold Arena.forest; rw [hD.leaf b (.inr ⟨t, hk⟩)]; rfl
      rw [this]
      simp [Html.ofKind, insertPatch, Html.plantings, Html.plantings.go]
  · intro m hm
    rw [f2 m fun c hc h => hm ((Arena.Anc.step ((hB.mem_iff _ _).1 hc) .refl).trans h)]
    show Arena.upd bts b _ m = _
    rw [Arena.upd_ne]
    rintro rfl
    exact hm .refl

/-! ### Deletions -/

/-- One removal for every node of a tree: the children of a node before the node, siblings from left to right,
everything under the number that it had at the beginning. -/
def Html.removals (at_ : Path) : Html → List Patch
  | .element _ _ cs => go at_ 0 cs ++ [.remove at_]
  | .text _ => [.remove at_]
  | .comment _ => [.remove at_]
  | .document => [.remove at_]
where
  go (at_ : Path) (i : Nat) : List Html → List Patch
    | [] => []
    | c :: cs => removals (at_ ++ [i]) c ++ go at_ (i + 1) cs

/-- The removals of the children number `i`, `i + 1`, ... of a node. -/
abbrev Html.removalsL (at_ : Path) (i : Nat) (cs : List Html) : List Patch := Html.removals.go at_ i cs

/-- `S'` is `S` without the nodes of `R`; the others keep their places. -/
structure Wilted (S S' : Shadow) (R : Nat → Prop) : Prop where
  shape : S'.Shape
  super : S'.superRoot = S.superRoot
  next : S.arena.next ≤ S'.arena.next
  parent : ∀ m, m < S.arena.next → ¬ R m → S'.arena.parent m = S.arena.parent m
  pos : ∀ m p, ¬ R m → S.arena.parent m = some p →
    Arena.posIn (S'.arena.children p) m = Arena.posIn (S.arena.children p) m
  kids : ∀ m, m < S.arena.next → (∀ c ∈ S.arena.children m, ¬ R c) → S'.arena.children m = S.arena.children m

namespace Wilted

variable {S S' S'' : Shadow} {R R' : Nat → Prop}

theorem path (hw : S.arena.WF) (h : Wilted S S' R) {n : Nat} {q : Path} (hq : S.IsPath n q)
    (hn : ∀ m, S.arena.Anc m n → ¬ R m) : S'.IsPath n q := by
  refine hq.congr h.super ?_
  intro m r hm hr
  obtain ⟨h1, h2⟩ := hw.lt_of_parent _ _ hr
  refine ⟨by rw [h.parent m h1 (hn m hm), hr], ?_, h.pos m r (hn m hm) hr⟩
  rw [h.parent r h2 (hn r ((Arena.Anc.step hr .refl).trans hm))]

theorem refl (hs : S.Shape) (hR : ∀ m, ¬ R m) : Wilted S S R :=
  ⟨hs, rfl, Nat.le_refl _, fun _ _ _ => rfl, fun _ _ _ _ => rfl, fun _ _ _ => rfl⟩

theorem trans (hw : S.arena.WF) (h : Wilted S S' R) (h' : Wilted S' S'' R') :
    Wilted S S'' (fun m => R m ∨ R' m) := by
  refine ⟨h'.shape, h'.super.trans h.super, Nat.le_trans h.next h'.next, ?_, ?_, ?_⟩
  · intro m hm hn
    rw [h'.parent m (Nat.lt_of_lt_of_le hm h.next) fun e => hn (.inr e), h.parent m hm fun e => hn (.inl e)]
  · intro m p hn hp
    have hm := (hw.lt_of_parent _ _ hp).1
    rw [h'.pos m p (fun e => hn (.inr e)) (by rw [h.parent m hm fun e => hn (.inl e)]; exact hp),
      h.pos m p (fun e => hn (.inl e)) hp]
  · intro m hm hn
    have h1 := h.kids m hm fun c hc e => hn c hc (.inl e)
    rw [h'.kids m (Nat.lt_of_lt_of_le hm h.next) (by rw [h1]; exact fun c hc e => hn c hc (.inr e)), h1]

theorem weaken (h : Wilted S S' R) (hR : ∀ m, R m → R' m) : Wilted S S' R' :=
  ⟨h.shape, h.super, h.next, fun m hm hn => h.parent m hm fun e => hn (hR m e),
    fun m p hn hp => h.pos m p (fun e => hn (hR m e)) hp,
    fun m hm hn => h.kids m hm fun c hc e => hn c hc (hR c e)⟩

theorem one (hs : S.Shape) {n p : Nat} (hp : S.arena.parent n = some p) (h : Shadow.Repl S S' n p) :
    Wilted S S' (fun m => m = n) := by
  refine ⟨h.shape, h.super, by have := h.next; omega, ?_, ?_, ?_⟩
  · intro m hm e
    rw [h.parent, if_neg e, if_neg (by omega)]
  · intro m r e hr
    have hm := (hs.wf.lt_of_parent _ _ hr).1
    rw [h.children]
    split
    · next e2 =>
      subst e2
      have hmem := (hs.wf.mem_iff _ _).2 hr
      refine posIn_getElem ?_ ?_
      · have := h.shape.wf.nodup r
        rw [h.children, if_pos rfl] at this
        exact this
      · rw [Arena.swapIn_getElem?, Arena.getElem?_posIn hmem]
        simp [e]
    · rfl
  · intro m hm hn
    rw [h.children, if_neg]
    rintro rfl
    exact hn n ((hs.wf.mem_iff _ _).2 hp) rfl

end Wilted

variable {A : Arena TData} {g : Nat → Nat}

/-- Deletion of a subtree that is still as in the beginning. -/
def Wilts (A B : Arena TData) (D : Arena NodeData) (g : Nat → Nat) (ins : List Nat) (a : Nat) : Prop :=
  ∀ (S : Shadow) (bts : Nat → Option Nat) (at_ : Path), S.Shape → S.IsPath a at_ → ¬ S.IsSlot a →
    (∀ n, A.Anc a n → S.arena.children n = A.children n) →
    ∃ S', convertLoop B ins ⟨S, bts⟩ ((A.post a).map .delete) =
        .ok (⟨S', bts⟩, (D.tree (g a)).removals at_) ∧ Wilted S S' (A.Anc a)

theorem anc_of_same {S : Shadow} (hA : A.WF) (hw : S.arena.WF) {a : Nat}
    (h : ∀ n, A.Anc a n → S.arena.children n = A.children n) {m : Nat} (hm : A.Anc a m) : S.arena.Anc a m := by
  induction hm with
  | refl => exact .refl
  | @step n p hp hap ih =>
    refine .step ((hw.mem_iff _ _).1 ?_) ih
    rw [h p hap]
    exact (hA.mem_iff _ _).2 hp

theorem Shadow.IsPath.parent_some {S : Shadow} {n : Nat} {q : Path} (h : S.IsPath n q) :
    ∃ p, S.arena.parent n = some p := by
  cases h with
  | base hp _ => exact ⟨_, hp⟩
  | step hp _ _ => exact ⟨_, hp⟩

theorem wilts_list (hA : A.WF) {ins : List Nat} {a : Nat} : ∀ (cs : List Nat) (pre : List Nat),
    A.children a = pre ++ cs → (∀ c ∈ cs, Wilts A B D g ins c) → ∀ (S : Shadow) (bts : Nat → Option Nat)
      (at_ : Path), S.Shape → S.IsPath a at_ → ¬ S.IsSlot a →
    (∀ i c, cs[i]? = some c → (S.arena.children a)[pre.length + i]? = some c) →
    (∀ c ∈ cs, ∀ n, A.Anc c n → S.arena.children n = A.children n) →
    ∃ S', convertLoop B ins ⟨S, bts⟩ ((cs.flatMap A.post).map .delete) =
        .ok (⟨S', bts⟩, Html.removalsL at_ pre.length (cs.map fun c => D.tree (g c))) ∧
      Wilted S S' (fun m => ∃ c ∈ cs, A.Anc c m) := by
  intro cs
  induction cs with
  | nil =>
    intro pre _ _ S bts at_ hs hq hsl _ _
    exact ⟨S, rfl, .refl hs (by simp)⟩
  | cons c cs ih =>
    intro pre he hc S bts at_ hs hq hsl hpl hsame
    have hc0 : (S.arena.children a)[pre.length]? = some c := hpl 0 c rfl
    have hpc : S.arena.parent c = some a := (hs.wf.mem_iff _ _).1 (List.mem_of_getElem? hc0)
    have hnd := hA.nodup a
    rw [he] at hnd
    have hpA : ∀ d ∈ c :: cs, A.parent d = some a := fun d hd => (hA.mem_iff _ _).1 (by rw [he]; simp [List.mem_cons.1 hd])
    have hne : ∀ d ∈ cs, d ≠ c := by
      rintro d hd rfl
      exact (List.nodup_cons.1 (List.nodup_append.1 hnd).2.1).1 hd
    have hqc : S.IsPath c (at_ ++ [pre.length]) := by
      have := Shadow.IsPath.step hpc hsl hq
      rwa [posIn_getElem (hs.wf.nodup a) hc0] at this
    have hslc : ¬ S.IsSlot c := by
      intro e
      obtain ⟨p, hp⟩ := hq.parent_some
      unfold Shadow.IsSlot at e
      rw [hpc] at e
      rw [Option.some.inj e, hs.super_none] at hp
      cases hp
    obtain ⟨S1, e1, w1⟩ := hc c (by simp) S bts _ hs hqc hslc (hsame c (by simp))
    have hup : ∀ m, S.arena.Anc m a → ¬ A.Anc c m := by
      intro m hm hcm
      exact not_anc_parent hs.wf hpc ((anc_of_same hA hs.wf (hsame c (by simp)) hcm).trans hm)
    have hq1 := w1.path hs.wf hq hup
    have hkid : ∀ i d, cs[i]? = some d → S1.arena.parent d = some a ∧
        Arena.posIn (S1.arena.children a) d = pre.length + (i + 1) := by
      intro i d hd
      have h1 := hpl (i + 1) d hd
      have h2 : S.arena.parent d = some a := (hs.wf.mem_iff _ _).1 (List.mem_of_getElem? h1)
      have hmem := List.mem_of_getElem? hd
      have h3 : ¬ A.Anc c d := by
        intro e
        exact hne d hmem (hA.siblings_disjoint (hpA c (by simp)) (hpA d (by simp [hmem])) e .refl).symm
      refine ⟨by rw [w1.parent d (hs.wf.lt_of_parent _ _ h2).1 h3, h2], ?_⟩
      rw [w1.pos d a h3 h2, posIn_getElem (hs.wf.nodup a) h1]
    obtain ⟨S2, e2, w2⟩ := ih (pre ++ [c]) (by rw [he]; simp) (fun d hd => hc d (by simp [hd])) S1 bts at_
      w1.shape hq1 (by
        unfold Shadow.IsSlot
        rw [w1.super, w1.parent a (hq.lt hs.wf) (hup a .refl)]
        exact hsl) (by
        intro i d hd
        obtain ⟨h1, h2⟩ := hkid i d hd
        have := Arena.getElem?_posIn ((w1.shape.wf.mem_iff _ _).2 h1)
        rw [h2] at this
        rw [← this]
        simp only [List.length_append, List.length_cons, List.length_nil]
        congr 1; omega) (by
        intro d hd n hn
        have h1 := hsame d (by simp [hd]) n hn
        rw [w1.kids, h1]
        · have := anc_of_same hA hs.wf (hsame d (by simp [hd])) hn
          obtain ⟨i, hi⟩ := List.mem_iff_getElem?.1 hd
          have h2 : S.arena.parent d = some a := (hs.wf.mem_iff _ _).1 (List.mem_of_getElem? (hpl (i + 1) d hi))
          rcases this.cases' with rfl | ⟨p, hp, _⟩
          · exact (hs.wf.lt_of_parent _ _ h2).1
          · exact (hs.wf.lt_of_parent _ _ hp).1
        · intro x hx e
          rw [h1] at hx
          exact hne d hd (hA.siblings_disjoint (hpA c (by simp)) (hpA d (by simp [hd])) e
            (.step ((hA.mem_iff _ _).1 hx) hn)).symm)
    refine ⟨S2, ?_, ?_⟩
    · rw [List.flatMap_cons, List.map_append, convertLoop_two e1 e2]
      simp [Html.removals.go]
    · refine (w1.trans hs.wf w2).weaken ?_
      rintro m (h | ⟨d, hd, h⟩)
      · exact ⟨c, by simp, h⟩
      · exact ⟨d, by simp [hd], h⟩

theorem wilts (hD : D.Sound) (hA : A.WF) {r : Nat}
    (hkids : ∀ n, A.Anc r n → n ≠ r → D.children (g n) = (A.children n).map g)
    (hnd : ∀ n, A.Anc r n → n ≠ r → (D.data (g n)).kind ≠ .document) (ins : List Nat) (a : Nat) :
    A.Anc r a → a ≠ r → Wilts A B D g ins a := by
  induction a using hA.induct_down with
  | step a ih =>
  intro har hne S bts at_ hs hq hsl hsame
  have hch := hsame a .refl
  obtain ⟨S1, e1, w1⟩ := wilts_list (B := B) (D := D) (g := g) (ins := ins) hA (a := a) (A.children a) [] rfl
    (fun c hc => ih c hc (.step ((hA.mem_iff _ _).1 hc) har) (by
      rintro rfl
      exact not_anc_parent hA ((hA.mem_iff _ _).1 hc) har)) S bts at_ hs hq hsl
    (by intro i c hc; rw [hch]; simpa using hc)
    (fun c hc n hn => hsame n ((Arena.Anc.step ((hA.mem_iff _ _).1 hc) .refl).trans hn))
  have hup : ∀ m, S.arena.Anc m a → ¬ ∃ c ∈ A.children a, A.Anc c m := by
    rintro m hm ⟨c, hc, hcm⟩
    have hpc : S.arena.parent c = some a := (hs.wf.mem_iff _ _).1 (by rw [hch]; exact hc)
    refine not_anc_parent hs.wf hpc (.trans (anc_of_same hA hs.wf (fun n hn => hsame n ?_) hcm) hm)
    exact (Arena.Anc.step ((hA.mem_iff _ _).1 hc) .refl).trans hn
  have hq1 := w1.path hs.wf hq hup
  obtain ⟨p, hp⟩ := hq.parent_some
  have hp1 : S1.arena.parent a = some p := by rw [w1.parent a (hq.lt hs.wf) (hup a .refl), hp]
  obtain ⟨S2, e2, r2⟩ := Shadow.detachWithPlaceholder_repl w1.shape hp1 (by
    rw [w1.super]; rintro rfl; exact hsl hp)
  refine ⟨S2, ?_, (w1.trans hs.wf (.one w1.shape hp1 r2)).weaken ?_⟩
  · rw [hA.post_eq, List.map_append]
    rw [convertLoop_two (C2 := ⟨S2, bts⟩) (qs := [.remove at_]) e1 (by
      show (convertOp B ins ⟨S1, bts⟩ (.delete a) >>= _) = _
      have : convertOp B ins ⟨S1, bts⟩ (.delete a) = .ok (⟨S2, bts⟩, [.remove at_]) := by
        simp only [convertOp, hq1.computePath_eq w1.shape.wf, e2]
        rfl
      rw [this]; rfl), hD.wf.tree_eq]
    have hf : (A.children a).map (fun c => D.tree (g c)) = D.forest (g a) := by
      unfold Arena.forest
      rw [hkids a har hne, List.map_map]; rfl
    rw [hf]
    cases hk : (D.data (g a)).kind with
    | document => exact absurd hk (hnd a har hne)
    | element tag attrs => simp [Html.ofKind, Html.removals]
    | text t =>
      have : D.forest (g a) = [] := by unfold Arena.forest; rw [hD.leaf _ (.inl ⟨t, hk⟩)]; rfl
      rw [this]
      simp [Html.ofKind, Html.removals, Html.removals.go]
    | comment t =>
      have : D.forest (g a) = [] := by unfold Arena.forest; rw [hD.leaf _ (.inr ⟨t, hk⟩)]; rfl
      rw [this]
      simp [Html.ofKind, Html.removals, Html.removals.go]
  · rintro m (⟨c, hc, h⟩ | rfl)
    · exact (Arena.Anc.step ((hA.mem_iff _ _).1 hc) .refl).trans h
    · exact .refl

end Hotmeal
