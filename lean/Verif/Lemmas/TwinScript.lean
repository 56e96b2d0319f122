import Verif.Lemmas.Twin
import Verif.Lemmas.Unique
import Verif.Lemmas.Html
import Verif.Props.TextEdits

set_option autoImplicit false
set_option linter.unusedSectionVars false

/-!
# Renaming the nodes of the new tree: edit script and patches
-/

namespace Hotmeal

variable {H H' : Type} [DecidableEq H] [DecidableEq H']

/-- The operation with the nodes of the new tree renamed. -/
def EditOp.rename (g : Nat → Nat) : EditOp → EditOp
  | .updateProps a b cs => .updateProps a (g b) cs
  | .setText a b t => .setText a (g b) t
  | .insert b pb pos k => .insert (g b) (g pb) pos k
  | .move a b pb pos => .move a (g b) (g pb) pos
  | .delete a => .delete a

/-- The nodes of the new tree that the conversion of the operation looks at are in `P`. -/
def EditOp.NewIn (P : Nat → Prop) : EditOp → Prop
  | .insert b pb _ _ => P b ∧ P pb
  | .move _ b pb _ => P b ∧ P pb
  | _ => True

variable {TA TB : DiffTree H} {TA' TB' : DiffTree H'} {Q P : Nat → Prop} {g : Nat → Nat} {M M' : Matching}

open Matching (Renamed)

namespace Twin

variable (h : Twin TA TB TA' TB' Q P g)

include h

theorem updateOps (hM : Renamed Q P g M M') {o : List Nat} :
    updateOps TA' TB' M' o (opaqueDescendants TB') =
      (updateOps TA TB M o (opaqueDescendants TB)).map (EditOp.rename g) := by
  unfold Hotmeal.updateOps
  rw [hM.pairs, List.flatMap_map, List.map_flatMap]
  apply flatMap_congr'
  intro p hp
  have hb := (hM.inPairs p hp).2
  rw [h.opaqueDescendants_b]
  simp only [h.mem_map hb h.opaque_in]
  split
  · rfl
  · rw [List.map_append]
    congr 1
    · unfold textOps
      rw [h.atext, h.btext _ hb]
      split
      · rfl
      · cases TB.text p.2 <;> rfl
    · unfold propOps
      rw [h.aprops, h.bprops _ hb]
      split
      · rfl
      · dsimp only
        split <;> rfl

theorem insertOps (hM : Renamed Q P g M M') (hr : M.containsB TB.root = true) :
    insertOps TB' M' (opaqueDescendants TB') = (insertOps TB M (opaqueDescendants TB)).map (EditOp.rename g) := by
  unfold Hotmeal.insertOps
  rw [h.biter, List.flatMap_map, List.map_flatMap]
  apply flatMap_congr'
  intro b hb
  have hb := h.piter b hb
  rw [hM.containsB hb]
  split
  · rfl
  · next hc =>
    have hne : b ≠ TB.root := by rintro rfl; exact hc hr
    obtain ⟨p, hp, e1, e2⟩ := h.bparent b hb hne
    rw [e1, e2]
    simp only
    rw [h.opaqueDescendants_b, h.bposition b hb hne, h.bkind b hb]
    simp only [h.mem_map hb h.opaque_in]
    split <;> rfl

theorem insertOps_in (hr : M.containsB TB.root = true) :
    ∀ op ∈ Hotmeal.insertOps TB M (opaqueDescendants TB), op.NewIn P := by
  intro op hop
  unfold Hotmeal.insertOps at hop
  obtain ⟨b, hb, hop⟩ := List.mem_flatMap.1 hop
  split at hop
  · cases hop
  · next hc =>
    have hb := h.piter b hb
    have hne : b ≠ TB.root := by rintro rfl; exact hc hr
    obtain ⟨p, hp, e1, e2⟩ := h.bparent b hb hne
    rw [e1] at hop
    simp only at hop
    split at hop
    · cases hop
    · cases List.mem_singleton.1 hop
      exact ⟨hb, hp⟩

theorem moveOp (hM : Renamed Q P g M M') {o : List Nat} {p : Nat × Nat} (hp : P p.2)
    (hr : p.2 = TB.root → TA.parent p.1 = none) :
    moveOp TA' TB' M' o (opaqueDescendants TB') (p.1, g p.2) =
      (moveOp TA TB M o (opaqueDescendants TB) p).map (EditOp.rename g) := by
  unfold Hotmeal.moveOp
  simp only
  rw [h.opaqueDescendants_b, h.aparent, h.aposition]
  simp only [h.mem_map hp h.opaque_in]
  split
  · rfl
  · by_cases e : p.2 = TB.root
    · rw [hr e]; rfl
    · obtain ⟨q, hq, e1, e2⟩ := h.bparent p.2 hp e
      rw [e1, e2]
      cases TA.parent p.1 with
      | none => rfl
      | some pa =>
        simp only
        rw [h.bposition _ hp e]
        have : M'.getB pa ≠ some (g q) ↔ M.getB pa ≠ some q := by
          rw [hM.getB]
          refine not_congr ⟨fun e => ?_, fun e => by rw [e]; rfl⟩
          cases e3 : M.getB pa with
          | none => rw [e3] at e; cases e
          | some y =>
            rw [e3] at e
            rw [h.inj y q (hM.inP pa y e3) hq (Option.some.inj e)]
        simp only [this]
        split
        · rfl
        · split <;> rfl

theorem moveOp_in {o o' : List Nat} {p : Nat × Nat} (hp : P p.2) (hr : p.2 = TB.root → TA.parent p.1 = none) :
    ∀ op ∈ Hotmeal.moveOp TA TB M o o' p, op.NewIn P := by
  intro op hop
  unfold Hotmeal.moveOp at hop
  split at hop
  · cases hop
  · by_cases e : p.2 = TB.root
    · rw [hr e] at hop; cases hop
    · obtain ⟨q, hq, e1, e2⟩ := h.bparent p.2 hp e
      rw [e1] at hop
      cases e3 : TA.parent p.1 with
      | none => rw [e3] at hop; cases hop
      | some pa =>
        rw [e3] at hop
        simp only at hop
        split at hop
        · cases List.mem_singleton.1 hop; exact ⟨hp, hq⟩
        · split at hop
          · cases List.mem_singleton.1 hop; exact ⟨hp, hq⟩
          · cases hop

/-- The edit script is the same up to the renaming. -/
theorem script (hM : Renamed Q P g M M') (hr : M.containsB TB.root = true)
    (hr' : ∀ p ∈ M.pairs, p.2 = TB.root → TA.parent p.1 = none) :
    generateEditScript TA' TB' M' = (generateEditScript TA TB M).map (EditOp.rename g) := by
  unfold generateEditScript
  simp only [List.map_append]
  rw [h.opaqueDescendants_a, h.updateOps hM, h.insertOps hM hr]
  congr 1
  · congr 1
    unfold moveOps
    rw [hM.pairs, List.flatMap_map, List.map_flatMap]
    apply flatMap_congr'
    intro p hp
    exact h.moveOp hM (hM.inPairs p hp).2 (hr' p hp)
  · unfold deleteOps
    rw [h.apost, List.map_flatMap]
    apply flatMap_congr'
    intro a _
    rw [hM.containsA]
    split
    · rfl
    · split <;> rfl

theorem script_in (hM : Renamed Q P g M M') (hr : M.containsB TB.root = true)
    (hr' : ∀ p ∈ M.pairs, p.2 = TB.root → TA.parent p.1 = none) :
    ∀ op ∈ generateEditScript TA TB M, op.NewIn P := by
  intro op hop
  unfold generateEditScript at hop
  simp only [List.mem_append] at hop
  rcases hop with ((hop | hop) | hop) | hop
  · unfold Hotmeal.updateOps at hop
    obtain ⟨p, hp, hop⟩ := List.mem_flatMap.1 hop
    split at hop
    · cases hop
    · rcases List.mem_append.1 hop with hop | hop
      · unfold textOps at hop
        split at hop
        · cases hop
        · split at hop
          · cases List.mem_singleton.1 hop; trivial
          · cases hop
      · unfold propOps at hop
        split at hop
        · cases hop
        · dsimp only at hop
          split at hop
          · cases List.mem_singleton.1 hop; trivial
          · cases hop
  · exact h.insertOps_in hr op hop
  · unfold moveOps at hop
    obtain ⟨p, hp, hop⟩ := List.mem_flatMap.1 hop
    exact h.moveOp_in (hM.inPairs p hp).2 (hr' p hp) op hop
  · unfold deleteOps at hop
    obtain ⟨a, _, hop⟩ := List.mem_flatMap.1 hop
    split at hop
    · cases hop
    · split at hop
      · cases hop
      · cases List.mem_singleton.1 hop; trivial

end Twin

/-! ### Conversion -/

theorem filterMap_congr' {α β : Type} {f f' : α → Option β} {l : List α} (h : ∀ x ∈ l, f x = f' x) :
    l.filterMap f = l.filterMap f' := by
  induction l with
  | nil => rfl
  | cons x l ih =>
    simp only [List.filterMap_cons, h x List.mem_cons_self, ih fun y hy => h y (List.mem_cons_of_mem _ hy)]

/-- `B'` is `B` with the nodes in `P` renamed. -/
structure ArenaTwin (B B' : Arena TData) (P : Nat → Prop) (g : Nat → Nat) : Prop where
  wf : B.WF
  wf' : B'.WF
  data : ∀ n, P n → B'.data (g n) = B.data n
  kids : ∀ n, P n → B'.children (g n) = (B.children n).map g
  pkid : ∀ n c, P n → c ∈ B.children n → P c
  inj : ∀ m n, P m → P n → g m = g n → m = n

/-- The same state of the conversion, up to the renaming. -/
structure Conv.Renamed (P : Nat → Prop) (g : Nat → Nat) (C C' : Conv) : Prop where
  shadow : C'.shadow = C.shadow
  bts : ∀ b, P b → C'.bToShadow (g b) = C.bToShadow b

/-- The same result up to the renaming. -/
inductive ConvSame (P : Nat → Prop) (g : Nat → Nat) : Res (Conv × List Patch) → Res (Conv × List Patch) → Prop
  | error (e : Err) : ConvSame P g (.error e) (.error e)
  | ok {C C' : Conv} (ps : List Patch) (h : C.Renamed P g C') : ConvSame P g (.ok (C, ps)) (.ok (C', ps))

variable {B B' : Arena TData}

namespace ArenaTwin

variable (h : ArenaTwin B B' P g)

include h

theorem extract {skip skip' : Nat → Bool} (hs : ∀ n, P n → skip' (g n) = skip n) (n : Nat) :
    P n → B'.fold (extractAlg B' skip') (g n) = B.fold (extractAlg B skip) n := by
  refine h.wf.induct_down (P := fun n => P n → B'.fold (extractAlg B' skip') (g n) =
    B.fold (extractAlg B skip) n) ?_ n
  intro n ih hn
  rw [h.wf.fold_eq, h.wf'.fold_eq, h.kids n hn, List.map_map]
  have e : (B.children n).map (B'.fold (extractAlg B' skip') ∘ g) =
      (B.children n).map (B.fold (extractAlg B skip)) :=
    List.map_congr_left fun c hc => ih c hc (h.pkid _ _ hn hc)
  rw [e]
  unfold extractAlg
  rw [hs n hn, h.data n hn]

theorem extractChildren {skip skip' : Nat → Bool} (hs : ∀ n, P n → skip' (g n) = skip n) {n : Nat} (hn : P n) :
    extractChildren B' skip' (g n) = extractChildren B skip n := by
  unfold Hotmeal.extractChildren
  rw [h.kids n hn, List.filterMap_map]
  apply filterMap_congr'
  intro c hc
  exact h.extract hs c (h.pkid _ _ hn hc)

theorem convertOp {ins : List Nat} (hins : ∀ b ∈ ins, P b) {C C' : Conv} (hC : C.Renamed P g C') (op : EditOp)
    (hop : op.NewIn P) : ConvSame P g (convertOp B ins C op) (convertOp B' (ins.map g) C' (op.rename g)) := by
  have hpar : ∀ b, P b → C'.parentOf (g b) = C.parentOf b := by
    intro b hb
    unfold Conv.parentOf
    rw [hC.bts b hb, hC.shadow]
  have hmem : ∀ c, P c → (g c ∈ ins.map g ↔ c ∈ ins) := by
    intro b hb
    constructor
    · intro hm
      obtain ⟨c, hc, e⟩ := List.mem_map.1 hm
      rwa [← h.inj c b (hins c hc) hb e]
    · exact List.mem_map_of_mem
  have hupd : ∀ (b s : Nat), P b → ∀ c, P c →
      Arena.upd C'.bToShadow (g b) (some s) (g c) = Arena.upd C.bToShadow b (some s) c := by
    intro b s hb c hc
    unfold Arena.upd
    by_cases e : c = b
    · rw [if_pos e, if_pos (by rw [e])]
    · rw [if_neg e, if_neg fun e' => e (h.inj _ _ hc hb e'), hC.bts c hc]
  cases op with
  | updateProps a b cs => 
    simp only [EditOp.rename, Hotmeal.convertOp]
    rw [hC.shadow]
    exact .ok _ hC
  | setText a b t =>
    simp only [EditOp.rename, Hotmeal.convertOp]
    rw [hC.shadow]
    exact .ok _ hC
  | delete a =>
    simp only [EditOp.rename, Hotmeal.convertOp, bind, Except.bind]
    rw [hC.shadow]
    cases C.shadow.detachWithPlaceholder a with
    | error e => exact .error e
    | ok S => exact .ok _ ⟨rfl, hC.bts⟩
  | insert b pb pos k =>
    obtain ⟨hb, hpb⟩ := hop
    simp only [EditOp.rename, Hotmeal.convertOp, bind, Except.bind]
    rw [hpar pb hpb]
    cases C.parentOf pb with
    | error e => exact .error e
    | ok sp =>
      simp only
      rw [hC.shadow, h.data b hb]
      generalize (C.shadow.arena.newNode _) = X
      obtain ⟨A, n⟩ := X
      simp only
      cases ({ C.shadow with arena := A } : Shadow).insertAtPosition sp pos n with
      | error e => exact .error e
      | ok Y =>
        obtain ⟨S, slot⟩ := Y
        simp only
        have he := h.extractChildren (skip' := fun c => (Arena.upd C'.bToShadow (g b) (some n) c).isSome ||
            decide (c ∈ ins.map g))
          (skip := fun c => (Arena.upd C.bToShadow b (some n) c).isSome || decide (c ∈ ins))
          (fun c hc => by simp only [hupd b n hb c hc, decide_eq_decide.2 (hmem c hc)]) hb
        rw [he]
        exact .ok _ ⟨rfl, hupd b n hb⟩
  | move a b pb pos =>
    obtain ⟨hb, hpb⟩ := hop
    simp only [EditOp.rename, Hotmeal.convertOp, bind, Except.bind]
    rw [hpar pb hpb]
    cases C.parentOf pb with
    | error e => exact .error e
    | ok sp =>
      simp only
      rw [hC.shadow]
      split
      · cases reparentChildren C.shadow a with
        | error e => exact .error e
        | ok X =>
          obtain ⟨S, pre⟩ := X
          simp only
          cases S.moveToPosition a sp pos with
          | error e => exact .error e
          | ok Y => exact .ok _ ⟨rfl, hupd b a hb⟩
      · cases C.shadow.moveToPosition a sp pos with
        | error e => exact .error e
        | ok Y => exact .ok _ ⟨rfl, hupd b a hb⟩

theorem convertLoop {ins : List Nat} (hins : ∀ b ∈ ins, P b) (ops : List EditOp) : ∀ {C C' : Conv},
    C.Renamed P g C' → (∀ op ∈ ops, op.NewIn P) →
    ConvSame P g (convertLoop B ins C ops) (convertLoop B' (ins.map g) C' (ops.map (EditOp.rename g))) := by
  induction ops with
  | nil => intro C C' hC _; exact .ok _ hC
  | cons op ops ih =>
    intro C C' hC hops
    simp only [List.map_cons, Hotmeal.convertLoop, bind, Except.bind]
    have h1 := h.convertOp hins hC op (hops op List.mem_cons_self)
    generalize Hotmeal.convertOp B ins C op = r at h1 ⊢
    generalize Hotmeal.convertOp B' (ins.map g) C' (op.rename g) = r' at h1 ⊢
    cases h1 with
    | error e => exact .error e
    | ok ps hC1 =>
      simp only
      have h2 := ih hC1 fun op hop => hops op (List.mem_cons_of_mem _ hop)
      generalize Hotmeal.convertLoop B ins _ ops = r at h2 ⊢
      generalize Hotmeal.convertLoop B' (ins.map g) _ (ops.map (EditOp.rename g)) = r' at h2 ⊢
      cases h2 with
      | error e => exact .error e
      | ok qs hC2 => exact .ok _ hC2

theorem convertOps {ops : List EditOp} (hops : ∀ op ∈ ops, op.NewIn P) (A : Arena TData) (root : Nat)
    (hM : Renamed Q P g M M') :
    convertOps (ops.map (EditOp.rename g)) A root B' M' = convertOps ops A root B M := by
  unfold Hotmeal.convertOps
  have hi : insertedNodes (ops.map (EditOp.rename g)) = (insertedNodes ops).map g := by
    unfold insertedNodes
    rw [List.filterMap_map, List.map_filterMap]
    apply filterMap_congr'
    intro op _
    cases op <;> rfl
  have hins : ∀ b ∈ insertedNodes ops, P b := by
    intro b hb
    unfold insertedNodes at hb
    obtain ⟨op, hop, e⟩ := List.mem_filterMap.1 hb
    cases op <;> cases e
    exact (hops _ hop).1
  have hinit : ∀ b, P b → initBToShadow M' (g b) = initBToShadow M b := by
    unfold initBToShadow
    rw [hM.pairs]
    refine foldl_rel (R := fun f f' : Nat → Option Nat => ∀ b, P b → f' (g b) = f b)
      (fun p : Nat × Nat => (p.1, g p.2)) M.pairs ?_ _ _ (fun _ _ => rfl)
    intro p hp f f' hf c hc
    have hb := (hM.inPairs p hp).2
    unfold Arena.upd
    by_cases e : c = p.2
    · rw [if_pos e, if_pos (by rw [e])]
    · rw [if_neg e, if_neg fun e' => e (h.inj _ _ hc hb e'), hf c hc]
  rw [hi]
  simp only [bind, Except.bind]
  cases Shadow.new A root with
  | error e => rfl
  | ok S =>
    simp only
    have h1 := h.convertLoop hins ops (C := ⟨S, initBToShadow M⟩) (C' := ⟨S, initBToShadow M'⟩) ⟨rfl, hinit⟩ hops
    generalize Hotmeal.convertLoop B (insertedNodes ops) _ ops = r at h1 ⊢
    generalize Hotmeal.convertLoop B' ((insertedNodes ops).map g) _ (ops.map (EditOp.rename g)) = r' at h1 ⊢
    cases h1 with
    | error e => rfl
    | ok ps _ => rfl

end ArenaTwin

end Hotmeal
