import Verif.Lemmas.Initial
import Verif.Lemmas.Traverse

set_option autoImplicit false

/-!
# The insert, move and delete phases
-/

namespace Hotmeal

/-! ### The ancestor case of Move -/

/-- Along the conversion of `ops` from state `C`, no node is moved below itself: at each Move the
new parent is not inside the moved node. -/
def ancestorFree (B : Arena TData) (ins : List Nat) : Conv → List EditOp → Bool
  | _, [] => true
  | C, op :: ops =>
    (match op with
      | .move a _ pb _ => match C.parentOf pb with
        | .ok sp => !C.shadow.isAncestor a sp
        | .error _ => true
      | _ => true) &&
    (match convertOp B ins C op with
      | .ok (C', _) => ancestorFree B ins C' ops
      | .error _ => true)

/-- There is a ranking of the nodes of both trees, equal on matched nodes, that strictly increases
from parent to child in both trees. -/
def Ranked (A B : Arena TData) (nb : Nat) (M : Matching) : Prop :=
  ∃ rA rB : Nat → Nat, (∀ a b, (a, b) ∈ M.pairs → rA a = rB b) ∧
    (∀ n p, A.parent n = some p → rA p < rA n) ∧
    (∀ n p, B.parent n = some p → B.Anc nb p → rB p < rB n)

theorem ancestorFree_trace {B : Arena TData} {ins : List Nat} {step : StepFn} {g : Nat → Nat}
    {J : Nat → Prop} {w w1 : World} {ops ops' : List EditOp} {ps : List Patch} (ht : Trace B ins step g J w ops ps w1)
    (h : ancestorFree B ins w.C (ops ++ ops') = true) : ancestorFree B ins w1.C ops' = true := by
  induction ht with
  | nil => exact h
  | cons hc _ _ _ _ ih =>
    simp only [List.cons_append, ancestorFree, hc, Bool.and_eq_true] at h
    exact ih h.2

namespace Struct

variable {X : Ctx} {S : Shadow} {bts : Nat → Option Nat} {Ins Del Set : Nat → Prop}

/-- With a ranking, the new parent is never inside the moved node. -/
theorem not_anc_of_ranked (h : Struct X S bts Ins Del Set (fun _ => False)) {A : Arena TData}
    {nb : Nat} {M : Matching} (hw : A.WF) {D : Arena NodeData} {f : Nat → Nat}
    (hX : X = Plan.ctx A X.B M D f) (hr : Ranked A X.B nb M)
    (hI : ∀ b n, bts b = some n → X.B.Anc nb b) {a b pb sp : Nat} (hb : bts b = some a)
    (hsp : bts pb = some sp) (hpb : X.B.parent b = some pb) : ¬ S.arena.Anc a sp := by
  obtain ⟨rA, rB, hr1, hr2, hr3⟩ := hr
  have hnA : X.nA = A.next := by rw [hX]; rfl
  have hpA : X.parA = A.parent := by rw [hX]; rfl
  have hps : X.pairs = M.pairs := by rw [hX]; rfl
  let Rk : Nat → Nat → Prop := fun n k => (n < X.nA ∧ k = rA n) ∨ ∃ b, bts b = some n ∧ k = rB b
  have rk_b : ∀ n b, bts b = some n → ∀ k, Rk n k → k = rB b := by
    rintro n b hb k (⟨h1, h2⟩ | ⟨b', h1, h2⟩)
    · rcases h.bts_cases b n hb with h3 | ⟨_, h3⟩
      · rw [h2, hr1 n b (by rw [← hps]; exact h3)]
      · omega
    · rw [h2, h.inj _ _ _ h1 hb]
  have rk_a : ∀ n, n < X.nA → ∀ k, Rk n k → k = rA n := by
    rintro n hn k (⟨h1, h2⟩ | ⟨b', h1, h2⟩)
    · exact h2
    · rcases h.bts_cases b' n h1 with h3 | ⟨_, h3⟩
      · rw [h2, hr1 n b' (by rw [← hps]; exact h3)]
      · omega
  have key : ∀ n, S.arena.Anc a n → X.Real bts Ins Del n → ∀ k, Rk n k → ∃ k', Rk a k' ∧ k' ≤ k := by
    intro n ha
    induction ha with
    | refl => intro _ k hk; exact ⟨k, hk, Nat.le_refl _⟩
    | @step n p hp ha ih =>
      intro hn k hk
      obtain ⟨p', hp', hpr⟩ := h.up n hn (fun e => e)
      rw [hp] at hp'; cases hp'
      have hns := h.ns a (h.bts_real hb)
      have hnotslot : ¬ S.IsSlot p := by
        intro hs
        rcases ha.cases' with e | ⟨q, hq, ha'⟩
        · subst e; exact hns.2.2 hs
        · have : S.arena.parent p = some S.superRoot := hs
          rw [this] at hq; cases hq
          rcases ha'.cases' with e | ⟨q, hq, _⟩
          · exact hns.2.1 e
          · rw [h.shape.super_none] at hq; cases hq
      have hpr := hpr.resolve_right hnotslot
      rcases (h.edge n p hn hp).resolve_left hnotslot with h1 | ⟨b', pb', h1, h2, h3⟩
      · rw [hpA] at h1
        have hlt := hw.lt_of_parent _ _ h1
        have hk1 := rk_a n (by omega) k hk
        obtain ⟨k', hk', hle⟩ := ih hpr (rA p) (.inl ⟨by omega, rfl⟩)
        refine ⟨k', hk', ?_⟩
        have := hr2 n p h1
        omega
      · have hk1 := rk_b n b' h1 k hk
        obtain ⟨k', hk', hle⟩ := ih hpr (rB pb') (.inr ⟨pb', h2, rfl⟩)
        refine ⟨k', hk', ?_⟩
        have := hr3 b' pb' h3 (hI pb' p h2)
        omega
  intro ha
  obtain ⟨k', h1, h2⟩ := key sp ha (h.bts_real hsp) (rB pb) (.inr ⟨pb, hsp, rfl⟩)
  have h3 := rk_b a b hb k' h1
  have h4 := hr3 b pb hpb (hI pb sp hsp)
  omega

end Struct

namespace Inv

variable {X : Ctx} {nb : Nat} {k0 : NodeKind} {Out : Nat → Prop} {D0 : Arena NodeData}
  {f0 : Nat → Nat} {C : Conv} {D : Arena NodeData} {slots : Slots} {f : Nat → Nat} {T : Nat → Prop}
  {K : Nat → Mark} {Ins Del Set : Nat → Prop}

/-- A settled node has its place in the document. -/
theorem atPlace (h : Inv X nb k0 Out D0 f0 C D slots f T K Ins Del Set (fun _ => False)) {b pb : Nat}
    (hb : Set b) (hp : X.B.parent b = some pb) :
    ∃ n np, C.bToShadow b = some n ∧ C.bToShadow pb = some np ∧ D.parent (f n) = some (f np) ∧
      (D.children (f np))[Arena.posIn (X.B.children pb) b]? = some (f n) := by
  obtain ⟨pb', n, np, h1, h2, h3, h4, h5⟩ := h.st.settled b hb
  rw [hp] at h1; cases h1
  have hns := (h.st.ns np (h.st.bts_real h3)).2.2
  obtain ⟨_, h6⟩ := h.sim.dparent (h.insT b n h2) h4 hns
  refine ⟨n, np, h2, h3, h6, ?_⟩
  have ho : (K np).2 = none := by
    rcases h.sim.up n np (h.insT b n h2) h4 with h7 | h7
    · exact h7.2
    · exact absurd h7 hns
  obtain ⟨junk, hk, _⟩ := h.sim.kids np (h.insT pb np h3) ho
  have hlt := (List.getElem?_eq_some_iff.1 h5).1
  rw [hk, List.getElem?_append_left (by simpa using hlt), List.getElem?_map, h5]; rfl

end Inv

/-- The world `w` is described by `Inv`. -/
structure WInv (X : Ctx) (nb : Nat) (k0 : NodeKind) (Out : Nat → Prop) (D0 : Arena NodeData)
    (f0 : Nat → Nat) (w : World) (Ins Del Set : Nat → Prop) : Prop where
  inv : ∃ f T K, Inv X nb k0 Out D0 f0 w.C w.D w.slots f T K Ins Del Set (fun _ => False) ∧
    ∀ b, w.c b = (w.C.bToShadow b).map f

namespace Plan

variable {A B : Arena TData} {nb : Nat} {M : Matching} {H : Type}
  {hashNode : HKind → Option Str → List H → H} {step : StepFn} {ins : List Nat} {k0 : NodeKind}
  {Out : Nat → Prop} {D0 : Arena NodeData} {f0 : Nat → Nat}

theorem child_sub (h : Plan A B nb M) {b c : Nat} (hb : B.Anc nb b) (hc : B.parent c = some b) :
    B.Anc nb c ∧ c ≠ nb := by
  refine ⟨.step hc hb, ?_⟩
  rintro rfl
  exact h.bw.self_parent_ne hc (h.bw.anc_antisymm (.step hc .refl) hb)

theorem position_eq {n p : Nat} (hp : B.parent n = some p) :
    (DiffTree.ofArena hashNode B nb).position n = Arena.posIn (B.children p) n := by
  simp only [DiffTree.ofArena, hp]

/-- Nodes inserted. Nodes inside opaque elements come with the element. -/
def Inserted (B : Arena TData) (nb : Nat) (M : Matching) (b : Nat) : Prop :=
  b ∈ B.descendants nb ∧ M.getA b = none ∧ ¬ InsideOpaque B nb b

/-- The insert phase. -/
theorem inserts (h : Plan A B nb M) (hL : Lawful (f0 0) step)
    (hins : ∀ c, B.Anc nb c → c ≠ nb → M.getA c = none → (c ∈ ins ↔ ¬ InsideOpaque B nb c))
    {oB : List Nat} (hoB : ∀ n, n ∈ oB ↔ InsideOpaque B nb n) :
    ∀ (todo done : List Nat) (w : World), B.descendants nb = done ++ todo →
      WInv (ctx A B M D0 f0) nb k0 Out D0 f0 w (fun b => b ∈ done ∧ M.getA b = none ∧ ¬ InsideOpaque B nb b) (fun _ => False)
        (fun b => Kept A B M b ∨ (b ∈ done ∧ M.getA b = none ∧ ¬ InsideOpaque B nb b)) →
    ∃ ps w', Trace B ins step f0 (Surplus (ctx A B M D0 f0) D0 f0) w (todo.flatMap fun b =>
        if M.containsB b then []
        else match (DiffTree.ofArena hashNode B nb).parent b with
          | none => []
          | some pb => if b ∈ oB then [] else
            [.insert b pb ((DiffTree.ofArena hashNode B nb).position b)
              ((DiffTree.ofArena hashNode B nb).kind b)]) ps w' ∧
      WInv (ctx A B M D0 f0) nb k0 Out D0 f0 w' (Inserted B nb M) (fun _ => False)
        (fun b => Kept A B M b ∨ Inserted B nb M b) := by
  intro todo
  induction todo with
  | nil =>
    intro done w hsplit hw
    rw [List.append_nil] at hsplit
    refine ⟨[], w, .nil _, ?_⟩
    have e : Inserted B nb M = fun b => b ∈ done ∧ M.getA b = none ∧ ¬ InsideOpaque B nb b := by
      funext n; simp only [Inserted, hsplit]
    rw [e]
    exact hw
  | cons b todo ih =>
    intro done w hsplit hw
    have hsplit' : B.descendants nb = (done ++ [b]) ++ todo := by rw [hsplit]; simp
    have hbm : B.Anc nb b := (h.bw.mem_descendants nb b).1 (by rw [hsplit]; simp)
    by_cases hc : (M.getA b).isSome ∨ InsideOpaque B nb b
    · -- matched or inside an opaque element: nothing to do
      have hskip : ∀ n, (n ∈ done ∧ M.getA n = none ∧ ¬ InsideOpaque B nb n) ↔ (n ∈ done ++ [b] ∧ M.getA n = none ∧ ¬ InsideOpaque B nb n) := by
        intro n
        constructor
        · rintro ⟨h1, h2⟩; exact ⟨List.mem_append_left _ h1, h2⟩
        · rintro ⟨h1, h2⟩
          rcases List.mem_append.1 h1 with h1 | h1
          · exact ⟨h1, h2⟩
          · rw [List.mem_singleton] at h1
            rw [h1] at h2
            rcases hc with hc | hc
            · rw [h2.1] at hc; cases hc
            · exact absurd hc h2.2
      have e1 : (fun n => n ∈ done ∧ M.getA n = none ∧ ¬ InsideOpaque B nb n) =
          (fun n => n ∈ done ++ [b] ∧ M.getA n = none ∧ ¬ InsideOpaque B nb n) := by
        funext n; exact propext (hskip n)
      have e2 : (fun n => Kept A B M n ∨ (n ∈ done ∧ M.getA n = none ∧ ¬ InsideOpaque B nb n)) =
          (fun n => Kept A B M n ∨ (n ∈ done ++ [b] ∧ M.getA n = none ∧ ¬ InsideOpaque B nb n)) := by
        funext n; rw [propext (hskip n)]
      rw [e1, e2] at hw
      obtain ⟨ps, w', ht, hw'⟩ := ih (done ++ [b]) w hsplit' hw
      refine ⟨ps, w', ?_, hw'⟩
      rw [List.flatMap_cons]
      rcases hc with hc | hc
      · rw [if_pos (show M.containsB b = true from hc)]
        exact ht
      · simp only [if_pos ((hoB b).2 hc)]
        split
        · exact ht
        · split <;> exact ht
    · obtain ⟨hc, hclear⟩ := not_or.1 hc
      have hnone : M.getA b = none := by simpa using hc
      have hbn : b ≠ nb := by
        rintro rfl
        rw [(h.getA 0 b).2 h.root] at hnone; cases hnone
      obtain ⟨pb, hpb, hpa⟩ : ∃ pb, B.parent b = some pb ∧ B.Anc nb pb := by
        rcases hbm.cases' with e | ⟨pb, hpb, hpa⟩
        · exact absurd e.symm hbn
        · exact ⟨pb, hpb, hpa⟩
      have hpd : pb ∈ done := h.bw.descendants_parent_first nb done b todo pb hsplit hpb hbn
      have hbd : b ∉ done := by
        have hnd := h.bw.descendants_nodup nb
        rw [hsplit] at hnd
        intro hb
        exact (List.nodup_append.1 hnd).2.2 b hb b (by simp) rfl
      obtain ⟨f, T, K, hinv, hcm⟩ := hw.inv
      have hb0 : w.C.bToShadow b = none := by
        cases e : w.C.bToShadow b with
        | none => rfl
        | some n =>
          rcases hinv.st.bts_cases b n e with h1 | ⟨⟨h1, _, _⟩, _⟩
          · rw [(h.getA n b).2 h1] at hnone; cases hnone
          · exact absurd h1 hbd
      have hbs : ¬ (Kept A B M b ∨ (b ∈ done ∧ M.getA b = none ∧ ¬ InsideOpaque B nb b)) := by
        rintro (⟨a, _, _, h1, _⟩ | ⟨h1, _⟩)
        · rw [(h.getA a b).2 h1] at hnone; cases hnone
        · exact hbd h1
      obtain ⟨sp, hsp⟩ : ∃ sp, w.C.bToShadow pb = some sp := by
        cases e : M.getA pb with
        | some a => exact ⟨a, hinv.st.bts_pair a pb ((h.getA a pb).1 e)⟩
        | none =>
          obtain ⟨n, hn, _⟩ := hinv.st.ins_bts pb ⟨hpd, e, (h.new_parent hclear hpb hpa).1⟩
          exact ⟨n, hn⟩
      have hbts : ∀ c n, w.C.bToShadow c = some n → ¬ InsideOpaque B nb c := by
        intro c n hcn
        rcases hinv.st.bts_cases c n hcn with h1 | ⟨⟨_, _, h1⟩, _⟩
        · exact (h.clear n c h1).2
        · exact h1
      obtain ⟨cs, hex, hcs, hbody⟩ : ∃ cs, extractChildren B
          (fun c => (Arena.upd w.C.bToShadow b (some w.C.shadow.arena.next) c).isSome ||
            decide (c ∈ ins)) b = cs ∧ (cs ≠ [] → (kindOf (B.data b)).IsElement) ∧
          ((bodyOf B M D0 f0 b = none ∧ cs = []) ∨
            bodyOf B M D0 f0 b = some (InsertContent.htmlL cs)) := by
        cases hop : (B.data b).props.isOpaque with
        | true =>
          refine ⟨extractChildren B (fun _ => false) b, ?_, ?_, .inr ?_⟩
          · refine extractChildren_congr h.bw fun c hbc hcne => ?_
            have hin : InsideOpaque B nb c := ⟨b, hbm, hop, hbc, hcne⟩
            have hca := Arena.Anc.trans hbm hbc
            have hcn : c ≠ nb := by rintro rfl; exact InsideOpaque.not_root h.bw hin
            rw [Arena.upd_ne _ _ hcne]
            cases e : w.C.bToShadow c with
            | some n => exact absurd hin (hbts c n e)
            | none =>
              cases e2 : M.getA c with
              | some a => rw [hinv.st.bts_pair a c ((h.getA a c).1 e2)] at e; cases e
              | none =>
                have : c ∉ ins := fun hm => (hins c hca hcn e2).1 hm hin
                simp [this]
          · intro _
            obtain ⟨nd, hnd, hd⟩ := (h.bt b hbm).1
            rw [hd, kindOf_tdataOf hnd]
            rw [hd] at hop
            cases hk : nd.kind with
            | element tag attrs => exact ⟨_, _, rfl⟩
            | _ => simp [tdataOf, hk, Attrs.isOpaque] at hop
          · unfold bodyOf
            rw [if_pos hop, hnone]
        | false =>
          refine ⟨[], ?_, fun e => absurd rfl e, .inl ⟨bodyOf_none hop, rfl⟩⟩
          unfold extractChildren
          rw [List.filterMap_eq_nil_iff]
          intro c hcm'
          have hcp := (h.bw.mem_iff _ _).1 hcm'
          obtain ⟨hca, hcn⟩ := h.child_sub hbm hcp
          have hcc : ¬ InsideOpaque B nb c := by
            rw [InsideOpaque.parent_iff h.bw hcp hbm, hop]
            simpa using hclear
          rw [h.bw.fold_eq, extractAlg, if_pos]
          cases e : M.getA c with
          | none => simp [(hins c hca hcn e).2 hcc]
          | some a =>
            have hne : c ≠ b := h.bw.self_parent_ne hcp ∘ Eq.symm
            simp [Arena.upd_ne _ _ hne, hinv.st.bts_pair a c ((h.getA a c).1 e)]
      obtain ⟨C', P, D', slots', f', T', K', hc1, hs1, hbt, hf1, hf2, hreg, hinv'⟩ := hinv.insert
        (by rw [hinv.fixed 0 h.old_zero]; exact hL)
        (ins := ins) h.bw hb0 hbs hsp hpb (.inr (h.elem b pb hpb hpa))
        (bodyOf_none (h.new_parent hclear hpb hpa).2) (h.bt b hbm).2 hcs hbody hex
      have hset : ∀ n, (n ∈ done ∧ M.getA n = none ∧ ¬ InsideOpaque B nb n) ∨ n = b ↔
          (n ∈ done ++ [b] ∧ M.getA n = none ∧ ¬ InsideOpaque B nb n) := by
        intro n
        simp only [List.mem_append, List.mem_singleton]
        constructor
        · rintro (⟨h1, h2⟩ | rfl)
          · exact ⟨.inl h1, h2⟩
          · exact ⟨.inr rfl, hnone, hclear⟩
        · rintro ⟨h1 | h1, h2⟩
          · exact .inl ⟨h1, h2⟩
          · exact .inr h1
      have e1 : (fun n => (n ∈ done ∧ M.getA n = none ∧ ¬ InsideOpaque B nb n) ∨ n = b) =
          (fun n => n ∈ done ++ [b] ∧ M.getA n = none ∧ ¬ InsideOpaque B nb n) := by
        funext n; exact propext (hset n)
      have e2 : (fun n => (Kept A B M n ∨ (n ∈ done ∧ M.getA n = none ∧ ¬ InsideOpaque B nb n)) ∨ n = b) =
          (fun n => Kept A B M n ∨ (n ∈ done ++ [b] ∧ M.getA n = none ∧ ¬ InsideOpaque B nb n)) := by
        funext n; rw [or_assoc, propext (hset n)]
      have hplace := hinv'.atPlace (b := b) (.inr rfl) hpb
      have hlt : ∀ b' n, w.C.bToShadow b' = some n → n < w.C.shadow.arena.next := fun b' n hn =>
        hinv.sim.t_lt n (hinv.insT b' n hn)
      rw [e1, e2] at hinv'
      let w1 : World := ⟨C', D', slots', Arena.upd w.c b (some w.D.next)⟩
      have hw1 : WInv (ctx A B M D0 f0) nb k0 Out D0 f0 w1 (fun n => n ∈ done ++ [b] ∧ M.getA n = none ∧ ¬ InsideOpaque B nb n)
          (fun _ => False) (fun n => Kept A B M n ∨ (n ∈ done ++ [b] ∧ M.getA n = none ∧ ¬ InsideOpaque B nb n)) := by
        refine ⟨f', T', K', hinv', ?_⟩
        intro b'
        show Arena.upd w.c b (some w.D.next) b' = (C'.bToShadow b').map f'
        rw [hbt]
        by_cases e : b' = b
        · subst e; simp [hf2]
        · rw [Arena.upd_ne _ _ e, Arena.upd_ne _ _ e, hcm]
          cases e2 : w.C.bToShadow b' with
          | none => rfl
          | some n => simp [hf1 n (hlt b' n e2)]
      obtain ⟨ps, w', ht, hw'⟩ := ih (done ++ [b]) w1 hsplit' hw1
      refine ⟨P :: ps, w', ?_, hw'⟩
      rw [List.flatMap_cons, if_neg (show ¬ M.containsB b = true from hc)]
      have hpe : (DiffTree.ofArena hashNode B nb).parent b = some pb := hpb
      simp only [hpe, if_neg (mt (hoB b).1 hclear), position_eq hpb]
      refine Trace.cons (w1 := w1) hc1 hs1 ?_ hreg ht
      refine ⟨rfl, f sp, by rw [hcm, hsp]; rfl, ?_⟩
      obtain ⟨n, np, g1, g2, g3, g4⟩ := hplace
      rw [hbt, Arena.upd_same] at g1; cases g1
      have hpbb : pb ≠ b := fun e => h.bw.self_parent_ne hpb e
      rw [hbt, Arena.upd_ne _ _ hpbb, hsp] at g2; cases g2
      rw [hf1 sp (hlt pb sp hsp), hf2] at g3 g4
      exact ⟨g3, g4⟩

/-- Nodes at their final place after processing the pairs `done`. -/
def MovedSet (A B : Arena TData) (nb : Nat) (M : Matching) (done : List (Nat × Nat)) (b : Nat) :
    Prop := (Kept A B M b ∨ Inserted B nb M b) ∨ (b ≠ nb ∧ b ∈ done.map Prod.snd)

/-- The move phase. -/
theorem moves (h : Plan A B nb M) (hL : Lawful (f0 0) step) (rest : List EditOp)
    {oA oB : List Nat} (ho : ∀ p ∈ M.pairs, p.1 ∉ oA ∧ p.2 ∉ oB) :
    ∀ (todo done : List (Nat × Nat)) (w : World), M.pairs = done ++ todo →
      WInv (ctx A B M D0 f0) nb k0 Out D0 f0 w (Inserted B nb M) (fun _ => False)
        (MovedSet A B nb M done) →
      (ancestorFree B ins w.C (todo.flatMap (moveOp (DiffTree.ofArena hashNode A 0)
        (DiffTree.ofArena hashNode B nb) M oA oB) ++ rest) = true ∨ Ranked A B nb M) →
    ∃ ps w', Trace B ins step f0 (Surplus (ctx A B M D0 f0) D0 f0) w (todo.flatMap (moveOp (DiffTree.ofArena hashNode A 0)
        (DiffTree.ofArena hashNode B nb) M oA oB)) ps w' ∧
      WInv (ctx A B M D0 f0) nb k0 Out D0 f0 w' (Inserted B nb M) (fun _ => False)
        (MovedSet A B nb M M.pairs) := by
  intro todo
  induction todo with
  | nil =>
    intro done w hsplit hw _
    rw [List.append_nil] at hsplit
    refine ⟨[], w, .nil _, ?_⟩
    rw [hsplit]
    exact hw
  | cons p todo ih =>
    intro done w hsplit hw hfree
    obtain ⟨a, b⟩ := p
    have hsplit' : M.pairs = (done ++ [(a, b)]) ++ todo := by rw [hsplit]; simp
    have hab : (a, b) ∈ M.pairs := by rw [hsplit]; simp
    obtain ⟨_, hbm⟩ := h.lt a b hab
    have hclear := (h.clear a b hab).2
    have hset : ∀ n, MovedSet A B nb M (done ++ [(a, b)]) n ↔
        MovedSet A B nb M done n ∨ (n ≠ nb ∧ n = b) := by
      intro n
      simp only [MovedSet, List.map_append, List.map_cons, List.map_nil, List.mem_append,
        List.mem_singleton, and_or_left, or_assoc]
    -- no operation
    have hskip : moveOp (DiffTree.ofArena hashNode A 0) (DiffTree.ofArena hashNode B nb) M oA oB
        (a, b) = [] → (b ≠ nb → Kept A B M b) →
        ∃ ps w', Trace B ins step f0 (Surplus (ctx A B M D0 f0) D0 f0) w (((a, b) :: todo).flatMap (moveOp
          (DiffTree.ofArena hashNode A 0) (DiffTree.ofArena hashNode B nb) M oA oB)) ps w' ∧
        WInv (ctx A B M D0 f0) nb k0 Out D0 f0 w' (Inserted B nb M) (fun _ => False)
          (MovedSet A B nb M M.pairs) := by
      intro e hk
      rw [List.flatMap_cons, e, List.nil_append]
      rw [List.flatMap_cons, e, List.nil_append] at hfree
      have e2 : MovedSet A B nb M done = MovedSet A B nb M (done ++ [(a, b)]) := by
        funext n
        refine propext ?_
        rw [hset]
        constructor
        · exact .inl
        · rintro (h1 | ⟨h1, rfl⟩)
          · exact h1
          · exact .inl (.inl (hk h1))
      rw [e2] at hw
      exact ih (done ++ [(a, b)]) w hsplit' hw hfree
    by_cases hbn : b = nb
    · have ha0 : a = 0 := by subst hbn; exact h.fn2 hab h.root
      refine hskip ?_ (fun e => absurd hbn e)
      simp [moveOp, DiffTree.ofArena, ha0, h.a0]
    · obtain ⟨pb, hpb, hpa⟩ : ∃ pb, B.parent b = some pb ∧ B.Anc nb pb := by
        rcases hbm.cases' with e | ⟨pb, hpb, hpa⟩
        · exact absurd e.symm hbn
        · exact ⟨pb, hpb, hpa⟩
      have ha0 : a ≠ 0 := by rintro rfl; exact hbn (h.fn1 hab h.root)
      obtain ⟨pa, hpaA⟩ : ∃ pa, A.parent a = some pa := by
        rcases (h.areach a (h.lt a b hab).1).cases' with e | ⟨pa, h1, _⟩
        · exact absurd e.symm ha0
        · exact ⟨pa, h1⟩
      have hop : moveOp (DiffTree.ofArena hashNode A 0) (DiffTree.ofArena hashNode B nb) M oA oB
          (a, b) = if M.getB pa = some pb ∧ Arena.posIn (A.children pa) a =
            Arena.posIn (B.children pb) b then [] else
              [.move a b pb (Arena.posIn (B.children pb) b)] := by
        simp only [moveOp, DiffTree.ofArena, hpaA, hpb, (ho _ hab).1, (ho _ hab).2, or_self, if_false]
        by_cases e1 : M.getB pa = some pb
        · by_cases e2 : Arena.posIn (A.children pa) a = Arena.posIn (B.children pb) b
          · simp [e1, e2]
          · simp [e1, e2]
        · simp [e1]
      by_cases hk : M.getB pa = some pb ∧ Arena.posIn (A.children pa) a =
            Arena.posIn (B.children pb) b
      · rw [if_pos hk] at hop
        exact hskip hop fun _ => ⟨a, pa, pb, hab, hpaA, hpb, (h.getB pa pb).1 hk.1, hk.2⟩
      · rw [if_neg hk] at hop
        rw [List.flatMap_cons, hop, List.singleton_append]
        rw [List.flatMap_cons, hop, List.singleton_append] at hfree
        obtain ⟨f, T, K, hinv, hcm⟩ := hw.inv
        have hba : w.C.bToShadow b = some a := hinv.st.bts_pair a b hab
        have hbs : ¬ MovedSet A B nb M done b := by
          rintro ((⟨a', pa', pb', h1, h2, h3, h4, h5⟩ | ⟨_, h1, _⟩) | ⟨_, h1⟩)
          · have := h.fn2 h1 hab; subst this
            rw [hpaA] at h2; cases h2
            rw [hpb] at h3; cases h3
            exact hk ⟨(h.getB _ _).2 h4, h5⟩
          · rw [(h.getA a b).2 hab] at h1; cases h1
          · have hnd := h.snd_nodup
            rw [hsplit, List.map_append, List.nodup_append] at hnd
            exact hnd.2.2 b h1 b (by simp) rfl
        obtain ⟨sp, hsp⟩ : ∃ sp, w.C.bToShadow pb = some sp := by
          cases e : M.getA pb with
          | some a => exact ⟨a, hinv.st.bts_pair a pb ((h.getA a pb).1 e)⟩
          | none =>
            obtain ⟨n, hn, _⟩ := hinv.st.ins_bts pb ⟨(h.bw.mem_descendants _ _).2 hpa, e,
              (h.new_parent hclear hpb hpa).1⟩
            exact ⟨n, hn⟩
        have hpbb : pb ≠ b := fun e => h.bw.self_parent_ne hpb e
        have hne : a ≠ sp := by
          rintro rfl
          exact hpbb (hinv.st.inj _ _ _ hsp hba)
        have hI : ∀ b' n, w.C.bToShadow b' = some n → B.Anc nb b' := by
          intro b' n hb'
          rcases hinv.st.bts_cases b' n hb' with h1 | ⟨h1, _⟩
          · exact (h.lt n b' h1).2
          · exact (h.bw.mem_descendants _ _).1 h1.1
        have hanc : ¬ w.C.shadow.arena.Anc a sp := by
          rcases hfree with hfree | hr
          · intro ha
            rw [List.cons_append] at hfree
            simp only [ancestorFree, Conv.parentOf, hsp, Bool.and_eq_true, Bool.not_eq_true'] at hfree
            have := (Shadow.isAncestor_iff hinv.st.shape.wf).2 ⟨ha, hne⟩
            rw [this] at hfree; cases hfree.1
          · exact hinv.st.not_anc_of_ranked h.aw rfl hr hI hba hsp hpb
        obtain ⟨C', P, D', slots', f', T', K', hc1, hs1, hbt, hf1, hreg, hinv', to, slot, hP⟩ := hinv.move
          (by rw [hinv.fixed 0 h.old_zero]; exact hL) (ins := ins) h.bw hba hbn hbs hsp hpb (.inr (h.elem b pb hpb hpa))
          (bodyOf_none (h.new_parent hclear hpb hpa).2) hanc
        have hplace := hinv'.atPlace (b := b) (.inr rfl) hpb
        have hlt : ∀ b' n, w.C.bToShadow b' = some n → n < w.C.shadow.arena.next := fun b' n hn =>
          hinv.sim.t_lt n (hinv.insT b' n hn)
        have e2 : (fun n => MovedSet A B nb M done n ∨ n = b) =
            MovedSet A B nb M (done ++ [(a, b)]) := by
          funext n
          refine propext ?_
          rw [hset]
          constructor
          · rintro (h1 | rfl)
            · exact .inl h1
            · exact .inr ⟨hbn, rfl⟩
          · rintro (h1 | ⟨_, h1⟩)
            · exact .inl h1
            · exact .inr h1
        rw [e2] at hinv'
        let w1 : World := ⟨C', D', slots', w.c⟩
        have hw1 : WInv (ctx A B M D0 f0) nb k0 Out D0 f0 w1 (Inserted B nb M) (fun _ => False)
            (MovedSet A B nb M (done ++ [(a, b)])) := by
          refine ⟨f', T', K', hinv', ?_⟩
          intro b'
          show w.c b' = (C'.bToShadow b').map f'
          rw [hbt, hcm]
          cases e2 : w.C.bToShadow b' with
          | none => rfl
          | some n => simp [hf1 n (hlt b' n e2)]
        have hfix : f a = f0 a := hinv.fixed a (h.pair_old hab)
        have hstep : Addresses f0 w (.move a b pb (Arena.posIn (B.children pb) b)) P w1 := by
          refine ⟨rfl, _, to, slot, hP, ?_, f sp, by rw [hcm, hsp]; rfl, ?_⟩
          · rw [← hfix]
            exact hinv.sim.navigate (hinv.st.isPath (hinv.st.bts_real hba)) (hinv.insT b a hba)
          · obtain ⟨n, np, g1, g2, g3, g4⟩ := hplace
            rw [hbt, hba] at g1; cases g1
            rw [hbt, hsp] at g2; cases g2
            rw [hf1 sp (hlt pb sp hsp), hf1 a (hlt b a hba), hfix] at g3 g4
            exact ⟨g3, g4⟩
        have hfree1 : ancestorFree B ins w1.C (todo.flatMap (moveOp (DiffTree.ofArena hashNode A 0)
            (DiffTree.ofArena hashNode B nb) M oA oB) ++ rest) = true ∨ Ranked A B nb M := by
          refine hfree.imp (fun e => ?_) (fun e => e)
          exact ancestorFree_trace (Trace.single (w1 := w1) hc1 hs1 hstep hreg)
            (by rw [List.cons_append] at e; exact e)
        obtain ⟨ps, w', ht, hw'⟩ := ih (done ++ [(a, b)]) w1 hsplit' hw1 hfree1
        exact ⟨P :: ps, w', Trace.cons (w1 := w1) hc1 hs1 hstep hreg ht, hw'⟩

/-- After the moves everything in the new tree but the root is at its place. -/
theorem moved_all (h : Plan A B nb M) {b : Nat} (hb : B.Anc nb b) (hne : b ≠ nb)
    (hclear : ¬ InsideOpaque B nb b) :
    MovedSet A B nb M M.pairs b := by
  cases e : M.getA b with
  | none => exact .inl (.inr ⟨(h.bw.mem_descendants _ _).2 hb, e, hclear⟩)
  | some a => exact .inr ⟨hne, List.mem_map.2 ⟨(a, b), (h.getA a b).1 e, rfl⟩⟩

/-- The delete phase. -/
theorem deletes (h : Plan A B nb M) (hL : Lawful (f0 0) step) {oA : List Nat}
    (hoA : ∀ n, n ∈ oA ↔ InsideOpaque A 0 n) :
    ∀ (todo done : List Nat) (w : World), A.post 0 = done ++ todo →
      WInv (ctx A B M D0 f0) nb k0 Out D0 f0 w (Inserted B nb M) (fun a => a ∈ done ∧ M.getB a = none ∧ ¬ InsideOpaque A 0 a)
        (MovedSet A B nb M M.pairs) →
    ∃ ps w', Trace B ins step f0 (Surplus (ctx A B M D0 f0) D0 f0) w (todo.flatMap fun a =>
        if M.containsA a then [] else if a ∈ oA then [] else [.delete a]) ps w' ∧
      WInv (ctx A B M D0 f0) nb k0 Out D0 f0 w' (Inserted B nb M)
        (fun a => a ∈ A.post 0 ∧ M.getB a = none ∧ ¬ InsideOpaque A 0 a) (MovedSet A B nb M M.pairs) := by
  intro todo
  induction todo with
  | nil =>
    intro done w hsplit hw
    rw [List.append_nil] at hsplit
    rw [← hsplit] at hw
    exact ⟨[], w, .nil _, hw⟩
  | cons a todo ih =>
    intro done w hsplit hw
    have hsplit' : A.post 0 = (done ++ [a]) ++ todo := by rw [hsplit]; simp
    have ham : A.Anc 0 a := (h.aw.mem_post 0 a).1 (by rw [hsplit]; simp)
    have halt : a < A.next := by
      rcases ham.cases' with e | ⟨p, hp, _⟩
      · rw [← e]; exact h.apos
      · exact (h.aw.lt_of_parent _ _ hp).1
    by_cases hc : (M.getB a).isSome ∨ InsideOpaque A 0 a
    · have e1 : (fun n => n ∈ done ∧ M.getB n = none ∧ ¬ InsideOpaque A 0 n) =
          (fun n => n ∈ done ++ [a] ∧ M.getB n = none ∧ ¬ InsideOpaque A 0 n) := by
        funext n
        refine propext ⟨fun ⟨h1, h2⟩ => ⟨List.mem_append_left _ h1, h2⟩, fun ⟨h1, h2⟩ => ⟨?_, h2⟩⟩
        rcases List.mem_append.1 h1 with h1 | h1
        · exact h1
        · rw [List.mem_singleton] at h1
          rw [h1] at h2
          rcases hc with hc | hc
          · rw [h2.1] at hc; cases hc
          · exact absurd hc h2.2
      rw [e1] at hw
      obtain ⟨ps, w', ht, hw'⟩ := ih (done ++ [a]) w hsplit' hw
      refine ⟨ps, w', ?_, hw'⟩
      rw [List.flatMap_cons]
      rcases hc with hc | hc
      · rw [if_pos (show M.containsA a = true from hc)]
        exact ht
      · rw [if_pos ((hoA a).2 hc)]
        split <;> exact ht
    · obtain ⟨hc, hclear⟩ := not_or.1 hc
      have hold : Old A a := ⟨halt, hclear⟩
      have hnone : M.getB a = none := by simpa using hc
      have hum : ∀ b, (a, b) ∉ M.pairs := by
        intro b hb
        rw [(h.getB a b).2 hb] at hnone; cases hnone
      have had : a ∉ done := by
        have hnd := h.aw.post_nodup 0
        rw [hsplit] at hnd
        intro hb
        exact (List.nodup_append.1 hnd).2.2 a hb a (by simp) rfl
      obtain ⟨f, T, K, hinv, hcm⟩ := hw.inv
      have hI : ∀ b' n, w.C.bToShadow b' = some n → B.Anc nb b' := by
        intro b' n hb'
        rcases hinv.st.bts_cases b' n hb' with h1 | ⟨h1, _⟩
        · exact (h.lt n b' h1).2
        · exact (h.bw.mem_descendants _ _).1 h1.1
      have hC : ∀ b' n, w.C.bToShadow b' = some n → ¬ InsideOpaque B nb b' := by
        intro b' n hb'
        rcases hinv.st.bts_cases b' n hb' with h1 | ⟨h1, _⟩
        · exact (h.clear n b' h1).2
        · exact h1.2.2
      have har : (ctx A B M D0 f0).Real w.C.bToShadow (Inserted B nb M)
          (fun a => a ∈ done ∧ M.getB a = none ∧ ¬ InsideOpaque A 0 a) a := .inl ⟨hold, fun e => had e.1⟩
      have hbts : ∀ b n, w.C.bToShadow b = some n → w.C.shadow.arena.parent n ≠ some a := by
        intro b n hb hp
        by_cases e : b = nb
        · subst e
          rw [hinv.rootB] at hb; cases hb
          obtain ⟨p0, h1, h2, _⟩ := hinv.slot0
          rw [hp] at h1; cases h1
          exact (hinv.st.ns a har).2.2 h2
        · obtain ⟨pb, n', np, h1, h2, h3, h4, _⟩ := hinv.st.settled b
            (h.moved_all (hI b n hb) e (hC b n hb))
          rw [hb] at h2; cases h2
          rw [hp] at h4; cases h4
          rcases hinv.st.bts_cases pb a h3 with h5 | ⟨_, h5⟩
          · exact hum pb h5
          · have h5 : A.next ≤ a := h5
            omega
      have hleaf : ∀ n, (ctx A B M D0 f0).Real w.C.bToShadow (Inserted B nb M)
          (fun a => a ∈ done ∧ M.getB a = none ∧ ¬ InsideOpaque A 0 a) n → w.C.shadow.arena.parent n ≠ some a := by
        rintro n (⟨h1, h2⟩ | ⟨b, _, h2⟩) hp
        · cases e : M.getB n with
          | some b => exact hbts b n (hinv.st.bts_pair n b ((h.getB n b).1 e)) hp
          | none =>
            have hun : ∀ b, (n, b) ∉ M.pairs := by
              intro b hb
              rw [(h.getB n b).2 hb] at e; cases e
            obtain ⟨p, hp', h3⟩ := hinv.st.unm n h1 h2 hun
            rw [hp] at hp'; cases hp'
            rcases h3 with h3 | h3
            · exact (hinv.st.ns a har).2.2 h3
            · exact h2 ⟨h.aw.post_children_first 0 done a todo n hsplit h3, e, h1.2⟩
        · exact hbts b n h2 hp
      obtain ⟨C', P, D', slots', f', T', K', hc1, hs1, hbt, hf1, hreg, hinv', _, hP⟩ := hinv.delete
        (by rw [hinv.fixed 0 h.old_zero]; exact hL) (ins := ins) hold (fun e => had e.1) hum hleaf
      have hlt : ∀ b' n, w.C.bToShadow b' = some n → n < w.C.shadow.arena.next := fun b' n hn =>
        hinv.sim.t_lt n (hinv.insT b' n hn)
      have e1 : (fun n => (n ∈ done ∧ M.getB n = none ∧ ¬ InsideOpaque A 0 n) ∨ n = a) =
          (fun n => n ∈ done ++ [a] ∧ M.getB n = none ∧ ¬ InsideOpaque A 0 n) := by
        funext n
        refine propext ?_
        simp only [List.mem_append, List.mem_singleton]
        constructor
        · rintro (⟨h1, h2⟩ | rfl)
          · exact ⟨.inl h1, h2⟩
          · exact ⟨.inr rfl, hnone, hclear⟩
        · rintro ⟨h1 | h1, h2⟩
          · exact .inl ⟨h1, h2⟩
          · exact .inr h1
      rw [e1] at hinv'
      let w1 : World := ⟨C', D', slots', w.c⟩
      have hw1 : WInv (ctx A B M D0 f0) nb k0 Out D0 f0 w1 (Inserted B nb M)
          (fun n => n ∈ done ++ [a] ∧ M.getB n = none ∧ ¬ InsideOpaque A 0 n) (MovedSet A B nb M M.pairs) := by
        refine ⟨f', T', K', hinv', ?_⟩
        intro b'
        show w.c b' = (C'.bToShadow b').map f'
        rw [hbt, hcm]
        cases e2 : w.C.bToShadow b' with
        | none => rfl
        | some n => simp [hf1 n (hlt b' n e2)]
      have hstep : Addresses f0 w (.delete a) P w1 := by
        refine ⟨rfl, _, hP, ?_⟩
        rw [← hinv.fixed a hold]
        exact hinv.sim.navigate (hinv.st.isPath har) (hinv.oldT a hold)
      obtain ⟨ps, w', ht, hw'⟩ := ih (done ++ [a]) w1 hsplit' hw1
      refine ⟨P :: ps, w', ?_, hw'⟩
      rw [List.flatMap_cons, if_neg (show ¬ M.containsA a = true from hc)]
      rw [if_neg (mt (hoA a).1 hclear)]
      exact Trace.cons (w1 := w1) hc1 hs1 hstep hreg ht

end Plan
end Hotmeal
