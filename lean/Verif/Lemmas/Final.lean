import Verif.Lemmas.Loop

set_option autoImplicit false

/-!
# The state after the last operation
-/

namespace Hotmeal

/-- The document `D` below its body `db` looks like the new tree `B` below `nb`, up to empty text
nodes at the end of child lists; `h` gives the document node of each tree node and `k0` is the
kind of the body. `body` gives the content of the opaque elements. -/
structure Mirror (B : Arena TData) (nb : Nat) (D : Arena NodeData) (db : Nat) (k0 : NodeKind)
    (body : Nat → Option (List Html)) (h : Nat → Nat) : Prop where
  wf : D.WF
  db_lt : db < D.next
  root : h nb = db
  rootK : (D.data db).kind = k0
  kids : ∀ b, B.Anc nb b → ¬ InsideOpaque B nb b → body b = none →
    ∃ junk, D.children (h b) = (B.children b).map h ++ junk ∧
    ∀ j ∈ junk, (D.data j).kind = .text []
  opq : ∀ b c, B.Anc nb b → ¬ InsideOpaque B nb b → body b = some c → D.forest (h b) = c
  data : ∀ b, B.Anc nb b → ¬ InsideOpaque B nb b → b ≠ nb → (D.data (h b)).kind = kindOf (B.data b)
  leaf : ∀ n s, (D.data n).kind = .text s → D.children n = []

/-- Everything outside the subtree of `db` is the same in `D` as in `D0`. -/
structure Framed (D0 : Arena NodeData) (db : Nat) (D : Arena NodeData) : Prop where
  next_le : D0.next ≤ D.next
  out : ∀ n, Outside D0 db n → D.parent n = D0.parent n ∧ D.children n = D0.children n ∧
    D.data n = D0.data n
  body : D.parent db = D0.parent db

namespace Inv

variable {X : Ctx} {nb : Nat} {k0 : NodeKind} {Out : Nat → Prop} {D0 : Arena NodeData}
  {f0 : Nat → Nat} {C : Conv} {D : Arena NodeData} {slots : Slots} {f : Nat → Nat} {T : Nat → Prop}
  {K : Nat → Mark} {Ins Del Set : Nat → Prop}

/-- When everything is at its place and every unmatched old node is gone, the document mirrors the
new tree. -/
theorem mirror (h : Inv X nb k0 Out D0 f0 C D slots f T K Ins Del Set (fun _ => False))
    (hB : X.B.WF) (hset : ∀ b, X.B.Anc nb b → ¬ InsideOpaque X.B nb b → b ≠ nb → Set b)
    (hsub : ∀ b n, C.bToShadow b = some n → X.B.Anc nb b ∧ ¬ InsideOpaque X.B nb b)
    (hdef : ∀ b, X.B.Anc nb b → ¬ InsideOpaque X.B nb b → ∃ n, C.bToShadow b = some n)
    (hopq : ∀ b, X.body b = none → (X.B.data b).props.isOpaque = false)
    (hdel : ∀ n, X.Old n → (∀ b, (n, b) ∉ X.pairs) → Del n) :
    ∃ g, (∀ b, X.B.Anc nb b → ¬ InsideOpaque X.B nb b → (C.bToShadow b).map f = some (g b)) ∧
      Mirror X.B nb D (f 0) k0 X.body g := by
  let s : Nat → Nat := fun b => (C.bToShadow b).getD 0
  have hs : ∀ b, X.B.Anc nb b → ¬ InsideOpaque X.B nb b → C.bToShadow b = some (s b) := by
    intro b hb hcl
    obtain ⟨n, hn⟩ := hdef b hb hcl
    simp [s, hn]
  have hs0 : s nb = 0 := by simp [s, h.rootB]
  have hw := h.st.shape.wf
  refine ⟨fun b => f (s b), fun b hb hcl => by rw [hs b hb hcl]; rfl, h.sim.dwf, h.sim.f_lt 0 h.sim.rootT,
    by show f (s nb) = _; rw [hs0], ?_, ?_, ?_, ?_, h.sim.dleaf⟩
  · rw [h.sim.data 0 h.sim.rootT, h.rootK]
  · intro b hb hcl hbo
    have hTs := h.insT b _ (hs b hb hcl)
    have hopen : (K (s b)).2 = none := by rw [h.mark b _ (hs b hb hcl)]; exact hbo
    have hchild : ∀ (i c : Nat), (X.B.children b)[i]? = some c →
        (C.shadow.arena.children (s b))[i]? = some (s c) := by
      intro i c hc
      have hcm := List.mem_of_getElem? hc
      have hcp := (hB.mem_iff _ _).1 hcm
      have hca : X.B.Anc nb c := .step hcp hb
      have hcn : c ≠ nb := by
        rintro rfl
        exact hB.self_parent_ne hcp (hB.anc_antisymm (.step hcp .refl) hb)
      have hcc : ¬ InsideOpaque X.B nb c := by
        rw [InsideOpaque.parent_iff hB hcp hb, hopq b hbo]
        simpa using hcl
      obtain ⟨pb, n, np, h1, h2, h3, _, h5⟩ := h.st.settled c (hset c hca hcc hcn)
      rw [hcp] at h1; cases h1
      rw [hs c hca hcc] at h2; cases h2
      rw [hs b hb hcl] at h3; cases h3
      have hi : i = Arena.posIn (X.B.children b) c :=
        List.nodup_getElem?_inj (hB.nodup b) hc (Arena.getElem?_posIn hcm)
      rw [hi]; exact h5
    have hlen : (X.B.children b).length ≤ (C.shadow.arena.children (s b)).length := by
      rcases Nat.lt_or_ge (C.shadow.arena.children (s b)).length (X.B.children b).length with hlt | hge
      · have h1 := hchild _ _ (List.getElem?_eq_getElem hlt)
        rw [List.getElem?_eq_none (Nat.le_refl _)] at h1
        cases h1
      · exact hge
    have htake : (C.shadow.arena.children (s b)).take (X.B.children b).length =
        (X.B.children b).map s := by
      apply List.ext_getElem?
      intro i
      rw [List.getElem?_take, List.getElem?_map]
      by_cases hi : i < (X.B.children b).length
      · rw [if_pos hi, List.getElem?_eq_getElem hi]
        exact hchild i _ (List.getElem?_eq_getElem hi)
      · rw [if_neg hi, List.getElem?_eq_none (by omega)]; rfl
    obtain ⟨junk, hk, hj⟩ := h.sim.kids _ hTs hopen
    refine ⟨((C.shadow.arena.children (s b)).drop (X.B.children b).length).map f ++ junk, ?_, ?_⟩
    · show D.children (f (s b)) = _
      have e : C.shadow.arena.children (s b) = (X.B.children b).map s ++
          (C.shadow.arena.children (s b)).drop (X.B.children b).length := by
        rw [← htake, List.take_append_drop]
      rw [hk]
      refine Eq.trans (congrArg (fun l => List.map f l ++ junk) e) ?_
      rw [List.map_append, List.map_map, List.append_assoc]
      rfl
    · intro j hjm
      rcases List.mem_append.1 hjm with hjm | hjm
      · obtain ⟨r, hr, rfl⟩ := List.mem_map.1 hjm
        obtain ⟨i, hi, hri⟩ := List.mem_iff_getElem.1 hr
        rw [List.getElem_drop] at hri
        have hri' : (C.shadow.arena.children (s b))[(X.B.children b).length + i]? = some r := by
          rw [List.length_drop] at hi
          rw [List.getElem?_eq_getElem (by omega), hri]
        have hrm := List.mem_of_getElem? hri'
        have hrp := (hw.mem_iff _ _).1 hrm
        have hTr := h.sim.down _ r hTs hopen hrm
        rw [h.sim.data r hTr]
        have hbts : ∀ b' , C.bToShadow b' = some r → False := by
          intro b' hb'
          by_cases e : b' = nb
          · subst e
            rw [h.rootB] at hb'; cases hb'
            obtain ⟨p0, h1, h2, _⟩ := h.slot0
            rw [hrp] at h1; cases h1
            exact (h.sim.t_ns _ hTs).2 h2
          · obtain ⟨pb, n, np, h1, h2, h3, h4, h5⟩ := h.st.settled b' (hset b' (hsub _ _ hb').1 (hsub _ _ hb').2 e)
            rw [hb'] at h2; cases h2
            rw [hrp] at h4; cases h4
            have := h.st.inj _ _ _ h3 (hs b hb hcl)
            subst this
            have hi := List.nodup_getElem?_inj (hw.nodup _) h5 hri'
            have hm := (hB.mem_iff _ _).2 h1
            have := List.idxOf_lt_length_of_mem hm
            rw [Arena.posIn, if_pos hm] at hi
            omega
        rcases h.other r hTr with (⟨h1, h2⟩ | ⟨b', _, h2⟩) | h1 | h1
        · exfalso
          by_cases e : ∃ b', (r, b') ∈ X.pairs
          · obtain ⟨b', hb'⟩ := e
            exact hbts b' (h.st.bts_pair r b' hb')
          · exact h2 (hdel r h1 fun b' hb' => e ⟨b', hb'⟩)
        · exact (hbts b' h2).elim
        · rw [(h.st.del r h1).2.2] at hrp; cases hrp
        · rw [h1]
      · exact (hj j hjm).1
  · intro b c hb hcl hbo
    have hbs := hs b hb hcl
    exact h.sim.body _ c (h.insT b _ hbs) (by rw [h.mark b _ hbs]; exact hbo)
  · intro b hb hcl hne
    show (D.data (f (s b))).kind = _
    rw [h.sim.data _ (h.insT b _ (hs b hb hcl)), h.content b _ (hs b hb hcl) hne]

theorem framed (h : Inv X nb k0 Out D0 f0 C D slots f T K Ins Del Set (fun _ => False))
    {db : Nat} (hO : Out = Outside D0 db) (h0 : f 0 = db) (hw0 : D0.WF) (hroot : ∀ q,
      D0.parent db = some q → Out q) : Framed D0 db D := by
  have hfr := h.sim.frame
  refine ⟨h.sim.next_le, ?_, ?_⟩
  · intro n hn; exact hfr n (by rw [hO]; exact hn)
  · cases e : D0.parent db with
    | some q =>
      have ho := hroot q e
      have hm := (hw0.mem_iff _ _).2 e
      rw [← (hfr q ho).2.1] at hm
      exact (h.sim.dwf.mem_iff _ _).1 hm
    | none =>
      cases e2 : D.parent db with
      | none => rfl
      | some q =>
        have ho := h.sim.rootp q (by rw [h0]; exact e2)
        have hm := (h.sim.dwf.mem_iff _ _).2 e2
        rw [(hfr q ho).2.1] at hm
        rw [(hw0.mem_iff _ _).1 hm] at e
        cases e

end Inv

namespace Plan

variable {A B : Arena TData} {nb : Nat} {M : Matching} {H : Type} [DecidableEq H]
  {hashNode : HKind → Option Str → List H → H} {step : StepFn}
  {D : Arena NodeData} {db : Nat} {f : Nat → Nat} {slots : Slots}

/-- Conversion and application of the whole edit script. -/
theorem run (h : Plan A B nb M) (hL : Lawful db step) (hd : DocRel A D db f) (hs : slots 0 = some db)
    {ops : List EditOp} (hops : ops = generateEditScript (DiffTree.ofArena hashNode A 0)
      (DiffTree.ofArena hashNode B nb) M) {S0 : Shadow} (hS0 : Shadow.new A 0 = .ok S0)
    (hfree : ancestorFree B (insertedNodes ops) ⟨S0, initBToShadow M⟩ ops = true ∨
      Ranked A B nb M) :
    ∃ ps w g, Trace B (insertedNodes ops) step f (Surplus (ctx A B M D f) D f)
        ⟨⟨S0, initBToShadow M⟩, D, slots, fun b => (M.getA b).map f⟩ ops ps w ∧
      (∀ b, B.Anc nb b → ¬ InsideOpaque B nb b → w.c b = some (g b)) ∧
      Mirror B nb w.D db (rootKind (D.data db).kind (B.data nb).props)
        (bodyOf B M D f) g ∧ Framed D db w.D := by
  obtain ⟨S0', hS0', hS⟩ := Shadow.new_init h.aw h.apos h.a0
  rw [hS0] at hS0'; cases hS0'
  rw [h.initBToShadow_eq] at hfree ⊢
  have hL0 : Lawful (f 0) step := by rw [hd.root]; exact hL
  have hst := h.struct0 D f hS
  have hsim := h.sim0 hS hd hs
  -- nodes inside opaque elements
  have hoA := mem_opaqueDescendants hashNode A 0 h.aw
  have hoB := mem_opaqueDescendants hashNode B nb h.bw
  have hoP : ∀ p ∈ M.pairs, p.1 ∉ opaqueDescendants (DiffTree.ofArena hashNode A 0) ∧
      p.2 ∉ opaqueDescendants (DiffTree.ofArena hashNode B nb) := by
    rintro ⟨a, b⟩ hab
    rw [hoA, hoB]
    exact h.clear a b hab
  -- inserted nodes
  have hins : ∀ c, B.Anc nb c → c ≠ nb → M.getA c = none →
      (c ∈ insertedNodes ops ↔ ¬ InsideOpaque B nb c) := by
    intro c hc hcn hnone
    obtain ⟨pc, hpc⟩ : ∃ p, B.parent c = some p := by
      rcases hc.cases' with e | ⟨p, hp, _⟩
      · exact absurd e.symm hcn
      · exact ⟨p, hp⟩
    constructor
    · intro hm
      unfold insertedNodes at hm
      obtain ⟨op, hop, he⟩ := List.mem_filterMap.1 hm
      cases op with
      | insert b pb pos kind =>
        simp only [Option.some.injEq] at he
        subst he
        rw [hops] at hop
        simp only [generateEditScript, List.mem_append, updateOps, moveOps, deleteOps] at hop
        have hop' : EditOp.insert b pb pos kind ∈ insertOps (DiffTree.ofArena hashNode B nb) M
            (opaqueDescendants (DiffTree.ofArena hashNode B nb)) := by
          rcases hop with ((hop | hop) | hop) | hop
          · exfalso
            obtain ⟨p, _, hp⟩ := List.mem_flatMap.1 hop
            split at hp
            · cases hp
            · rcases List.mem_append.1 hp with hp | hp
              · unfold textOps at hp
                split at hp
                · cases hp
                · split at hp <;> simp at hp
              · rw [propOps_eq] at hp
                split at hp <;> simp at hp
          · exact hop
          · exfalso
            obtain ⟨p, _, hp⟩ := List.mem_flatMap.1 hop
            unfold moveOp at hp
            split at hp
            · cases hp
            · split at hp
              · split at hp
                · simp at hp
                · split at hp <;> simp at hp
              · cases hp
          · exfalso
            obtain ⟨p, _, hp⟩ := List.mem_flatMap.1 hop
            split at hp
            · cases hp
            · split at hp <;> simp at hp
        unfold insertOps at hop'
        obtain ⟨b', _, hb'⟩ := List.mem_flatMap.1 hop'
        split at hb'
        · cases hb'
        · split at hb'
          · cases hb'
          · split at hb'
            · cases hb'
            · next hno =>
              simp only [List.mem_singleton, EditOp.insert.injEq] at hb'
              rw [hb'.1]
              exact mt (hoB b').2 hno
      | _ => simp at he
    · intro hclear
      unfold insertedNodes
      rw [List.mem_filterMap]
      refine ⟨.insert c pc (Arena.posIn (B.children pc) c) (B.data c).kind, ?_, rfl⟩
      rw [hops]
      simp only [generateEditScript, List.mem_append]
      refine .inl (.inl (.inr ?_))
      unfold insertOps
      rw [List.mem_flatMap]
      refine ⟨c, (h.bw.mem_descendants nb c).2 hc, ?_⟩
      have hcb : ¬ M.containsB c = true := by
        show ¬ (M.getA c).isSome = true
        rw [hnone]; simp
      have hno := mt (hoB c).1 hclear
      have hpe : (DiffTree.ofArena hashNode B nb).parent c = some pc := hpc
      rw [if_neg hcb, hpe]
      simp only [if_neg hno, position_eq hpc]
      exact List.mem_singleton.2 rfl
  generalize hi : insertedNodes ops = ins at *
  -- the phases
  have e : ops = (M.pairs.flatMap fun p =>
        textOps (DiffTree.ofArena hashNode A 0) (DiffTree.ofArena hashNode B nb) p.1 p.2 ++
        propOps (DiffTree.ofArena hashNode A 0) (DiffTree.ofArena hashNode B nb) p.1 p.2) ++
      ((B.descendants nb).flatMap fun b =>
        if M.containsB b then []
        else match (DiffTree.ofArena hashNode B nb).parent b with
          | none => []
          | some pb => if b ∈ opaqueDescendants (DiffTree.ofArena hashNode B nb) then [] else
            [.insert b pb ((DiffTree.ofArena hashNode B nb).position b)
              ((DiffTree.ofArena hashNode B nb).kind b)]) ++
      (M.pairs.flatMap (moveOp (DiffTree.ofArena hashNode A 0) (DiffTree.ofArena hashNode B nb) M
        (opaqueDescendants (DiffTree.ofArena hashNode A 0))
        (opaqueDescendants (DiffTree.ofArena hashNode B nb)))) ++
      ((A.post 0).flatMap fun a =>
        if M.containsA a then [] else if a ∈ opaqueDescendants (DiffTree.ofArena hashNode A 0) then [] else [.delete a]) := by
    rw [hops]
    simp only [generateEditScript, insertOps, moveOps, deleteOps]
    rw [← h.aw.postOrder_eq h.apos]
    have hu : updateOps (DiffTree.ofArena hashNode A 0) (DiffTree.ofArena hashNode B nb) M
        (opaqueDescendants (DiffTree.ofArena hashNode A 0))
        (opaqueDescendants (DiffTree.ofArena hashNode B nb)) = M.pairs.flatMap fun p =>
          textOps (DiffTree.ofArena hashNode A 0) (DiffTree.ofArena hashNode B nb) p.1 p.2 ++
          propOps (DiffTree.ofArena hashNode A 0) (DiffTree.ofArena hashNode B nb) p.1 p.2 := by
      unfold updateOps
      have key : ∀ l : List (Nat × Nat), (∀ p ∈ l, p ∈ M.pairs) → (l.flatMap fun p =>
          if p.1 ∈ opaqueDescendants (DiffTree.ofArena hashNode A 0) ∨
            p.2 ∈ opaqueDescendants (DiffTree.ofArena hashNode B nb) then []
          else textOps (DiffTree.ofArena hashNode A 0) (DiffTree.ofArena hashNode B nb) p.1 p.2 ++
            propOps (DiffTree.ofArena hashNode A 0) (DiffTree.ofArena hashNode B nb) p.1 p.2) =
          l.flatMap fun p =>
            textOps (DiffTree.ofArena hashNode A 0) (DiffTree.ofArena hashNode B nb) p.1 p.2 ++
            propOps (DiffTree.ofArena hashNode A 0) (DiffTree.ofArena hashNode B nb) p.1 p.2 := by
        intro l
        induction l with
        | nil => intro _; rfl
        | cons p l ih =>
          intro hl
          have hp := hoP p (hl p (by simp))
          rw [List.flatMap_cons, List.flatMap_cons, ih fun q hq => hl q (by simp [hq]),
            if_neg (not_or.2 hp)]
      exact key _ fun _ h => h
    rw [hu]
    rfl
  rw [e] at hfree ⊢
  -- updates
  obtain ⟨ps1, D1, K1, ht1, hsim1, hK1, _⟩ := h.updates (hashNode := hashNode) hL (ins := ins)
    hd.elem hd.clean (C := ⟨S0, M.getA⟩) (slots := slots) (c := fun b => (M.getA b).map f)
    (Out := Outside D db) (D0 := D) (T := Old A) (f0 := f) hst hs M.pairs D
    (mark0 A D f) (by
      rintro ⟨a, b⟩ hab
      have hlt := h.pair_old hab
      refine ⟨hab, hlt, ?_⟩
      simp only [PreK, mark0]
      by_cases e0 : a = 0
      · rw [if_pos e0, e0, hd.root]
      · rw [if_neg e0]; exact hd.data a hlt e0) h.fst_nodup hsim
  have hrootE : (rootKind (D.data db).kind (B.data nb).props).IsElement := by
    obtain ⟨t, as, hk⟩ := hd.elem
    rw [hk]; exact ⟨_, _, rfl⟩
  have hs0 : S0.arena.parent 0 = some (A.next + 1) := by rw [hS.parent, if_pos rfl]
  have hslot : S0.IsSlot (A.next + 1) := by
    show S0.arena.parent _ = some S0.superRoot
    rw [hS.super, hS.parent, if_neg (by omega), if_pos rfl]
  have hw1 : WInv (ctx A B M D f) nb (rootKind (D.data db).kind (B.data nb).props) (Outside D db) D f
      ⟨⟨S0, M.getA⟩, D1, slots, fun b => (M.getA b).map f⟩
      (fun b => b ∈ ([] : List Nat) ∧ M.getA b = none ∧ ¬ InsideOpaque B nb b) (fun _ => False)
      (fun b => Kept A B M b ∨ (b ∈ ([] : List Nat) ∧ M.getA b = none ∧ ¬ InsideOpaque B nb b)) := by
    refine ⟨f, Old A, K1, ?_, fun _ => rfl⟩
    simp only [List.not_mem_nil, false_and, or_false]
    refine ⟨hst, hsim1, fun _ hn => hn, ?_, ?_, ?_, ?_, (h.getA 0 nb).2 h.root, ?_, hrootE,
      fun _ _ => rfl, A.next + 1, hs0, hslot, ?_⟩
    · intro b n hb; exact h.pair_old ((h.getA n b).1 hb)
    · intro n hn; exact .inl (.inl ⟨hn, fun e => e⟩)
    · intro b n hb hbn
      have := hK1 (n, b) ((h.getA n b).1 hb)
      simp only [target, if_neg hbn] at this
      rw [this]; rfl
    · intro b n hb
      have hab := (h.getA n b).1 hb
      have hb' : M.getA b = some n := hb
      rw [hK1 (n, b) hab]
      simp only [mark0, ctx, bodyOf, hb', h.opq n b hab]
    · have := hK1 (0, nb) h.root
      rw [this]; simp only [target, if_true]
    · show Arena.posIn (S0.arena.children S0.superRoot) (A.next + 1) = 0
      have : S0.arena.children S0.superRoot = [A.next + 1] := by
        rw [hS.super, hS.children, if_neg (by omega), if_pos rfl]
      rw [this]; simp [Arena.posIn]
  obtain ⟨ps2, w2, ht2, hw2⟩ := h.inserts (hashNode := hashNode) hL0 hins hoB (B.descendants nb) [] _ rfl
    hw1
  have ht12 := ht1.append ht2
  have e3 : (fun b => Kept A B M b ∨ Inserted B nb M b) = MovedSet A B nb M [] := by
    funext n; simp [MovedSet]
  rw [e3] at hw2
  have hfree2 : ancestorFree B ins w2.C (M.pairs.flatMap (moveOp (DiffTree.ofArena hashNode A 0)
      (DiffTree.ofArena hashNode B nb) M (opaqueDescendants (DiffTree.ofArena hashNode A 0))
      (opaqueDescendants (DiffTree.ofArena hashNode B nb))) ++ ((A.post 0).flatMap fun a =>
        if M.containsA a then [] else if a ∈ opaqueDescendants (DiffTree.ofArena hashNode A 0) then [] else [.delete a])) = true ∨
      Ranked A B nb M := by
    refine hfree.imp (fun hf => ?_) (fun e => e)
    rw [List.append_assoc] at hf
    exact ancestorFree_trace ht12 hf
  obtain ⟨ps3, w3, ht3, hw3⟩ := h.moves (hashNode := hashNode) (ins := ins) hL0 _ hoP M.pairs [] w2
    rfl hw2 hfree2
  have e4 : (fun _ : Nat => False) = fun a => a ∈ ([] : List Nat) ∧ M.getB a = none ∧
      ¬ InsideOpaque A 0 a := by
    funext n; simp
  rw [e4] at hw3
  obtain ⟨ps4, w4, ht4, hw4⟩ := h.deletes (ins := ins) hL0 hoA (A.post 0) [] w3 rfl hw3
  obtain ⟨f4, T4, K4, hinv, hcm⟩ := hw4.inv
  have hI : ∀ b n, w4.C.bToShadow b = some n → B.Anc nb b ∧ ¬ InsideOpaque B nb b := by
    intro b' n hb'
    rcases hinv.st.bts_cases b' n hb' with h1 | ⟨h1, _⟩
    · exact ⟨(h.lt n b' h1).2, (h.clear n b' h1).2⟩
    · exact ⟨(h.bw.mem_descendants _ _).1 h1.1, h1.2.2⟩
  obtain ⟨g, hg, hm⟩ := hinv.mirror h.bw (fun b hb hcl hne => h.moved_all hb hne hcl) hI (by
      intro b hb hcl
      cases e : M.getA b with
      | some a => exact ⟨a, hinv.st.bts_pair a b ((h.getA a b).1 e)⟩
      | none =>
        obtain ⟨n, hn, _⟩ := hinv.st.ins_bts b ⟨(h.bw.mem_descendants _ _).2 hb, e, hcl⟩
        exact ⟨n, hn⟩) (by
      intro b hb
      have hb : bodyOf B M D f b = none := hb
      show (B.data b).props.isOpaque = false
      unfold bodyOf at hb
      split at hb
      · split at hb <;> cases hb
      · next e => simpa using e) (by
      intro n hn hum
      refine ⟨(h.aw.mem_post 0 n).2 (h.areach n hn.1), ?_, hn.2⟩
      cases e : M.getB n with
      | none => rfl
      | some b => exact absurd ((h.getB n b).1 e) (hum b))
  have hf0 : f4 0 = db := by rw [hinv.fixed 0 h.old_zero, hd.root]
  rw [hf0] at hm
  refine ⟨_, w4, g, (ht12.append ht3).append ht4, ?_, hm, ?_⟩
  · intro b hb hcl; rw [hcm]; exact hg b hb hcl
  · exact hinv.framed rfl hf0 hd.wf (fun q hq => by
      refine ⟨(hd.wf.lt_of_parent _ _ hq).2, fun ha => ?_⟩
      exact hd.wf.self_parent_ne hq (hd.wf.anc_antisymm (.step hq .refl) ha))

end Plan
end Hotmeal
