import Verif.Lemmas.Numbers

set_option autoImplicit false
set_option linter.unusedSectionVars false

/-!
# How many children the nodes of a shadow tree get

When a node is to be moved below itself, its children are first moved to its parent, so numbers of children may
add up. Every possible child is counted once, as a token that is owned by a node: a node has at most as many children
as it owns tokens. When the children of a node go to its parent, so do the tokens.
-/

namespace Hotmeal

namespace Shadow.Num

variable {bd : Nat → Nat} {S S' : Shadow}

/-- One child is moved to the parent of its parent. -/
theorem rehang (h : S.Num bd) {c a p pos i : Nat} {P : Patch} (hc : S.arena.parent c = some a)
    (ha : S.arena.parent a = some p) (hps : p ≠ S.superRoot) (hroom : (S.arena.children p).length < bd p)
    (e : reparentChild p pos S i c = .ok (S', P)) :
    S'.Num bd ∧ Rehung S S' a p [c] ∧ (S'.arena.children p).length = (S.arena.children p).length + 1 ∧
      P = .move (S.computePath c) (S'.refWithPos p (pos + 1 + i)) none := by
  have hw := h.shape.wf
  have hlc := hw.lt_of_parent _ _ hc
  have hla := hw.lt_of_parent _ _ ha
  have has : a ≠ S.superRoot := by
    rintro rfl; have := h.shape.super_none; rw [this] at ha; cases ha
  obtain ⟨S2, t, e2, hre⟩ := reparentChild_ok h.shape hc ha hps pos i
  rw [e] at e2
  injection e2 with e2
  injection e2 with e2 e3
  subst e2
  obtain ⟨S1, e1, hr⟩ := Shadow.detachWithPlaceholder_repl h.shape hc has
  have h1 := h.repl has hr
  have hca : c ≠ a := (hw.self_parent_ne hc).symm
  have hpa : p ≠ a := hw.self_parent_ne ha
  have hanc : ¬ S1.arena.Anc c p := by
    intro h1
    have h2 : S.arena.Anc c p := by
      refine Inv.anc_of_detached hw (S1 := S1) ?_ h1 hla.2
      intro m hm
      rw [hr.parent]
      by_cases h : m = c
      · rw [if_pos h, if_pos h]
      · rw [if_neg h, if_neg h, if_neg (by omega)]
    have h3 : S.arena.Anc a c := .step hc .refl
    have h4 : S.arena.Anc p a := .step ha .refl
    exact hca (hw.anc_antisymm (h2.trans h4) h3)
  have hcn : S1.arena.parent c = none := by rw [hr.parent, if_pos rfl]
  have hclt : c < S1.arena.next := by have := hr.next; omega
  have hplt : p < S1.arena.next := by have := hr.next; omega
  have hpch : S1.arena.children p = S.arena.children p := by rw [hr.children, if_neg hpa]
  have fin : ∀ A' : Arena TData, S' = { S1 with arena := A' } → (A'.children p).length = (S.arena.children p).length + 1 →
      (∀ m, A'.parent m = if m = c then some p else S1.arena.parent m) →
      (∀ m, m ≠ p → A'.children m = S1.arena.children m) →
      S'.Num bd ∧ (S'.arena.children p).length = (S.arena.children p).length + 1 := by
    intro A' eS hl hpar hch
    subst eS
    refine ⟨⟨hre.shape, ?_, ?_⟩, hl⟩
    · intro m hm
      show (A'.children m).length ≤ _
      by_cases e : m = p
      · subst e; omega
      · rw [hch m e]; exact h1.fan m hm
    · intro m hm
      have hm' : A'.parent m = some S1.superRoot := hm
      rw [hpar] at hm'
      split at hm'
      · injection hm' with hm'; rw [hr.super] at hm'; exact absurd hm' hps
      · exact h1.low m hm'
  unfold reparentChild at e
  simp only [e1, bind, Except.bind] at e
  cases hsib : (S1.arena.children p)[pos + 1 + i]? with
  | some sib =>
    obtain ⟨A', e2, -, -, p', c', -⟩ := hr.shape.wf.insert_at hsib hclt hcn hanc
    rw [hsib] at e
    simp only [e2] at e
    injection e with e
    injection e with e5 e6
    obtain ⟨f1, f2⟩ := fin A' e5.symm (by
      rw [c', if_pos rfl, hpch]
      have := (List.getElem?_eq_some_iff.1 hsib).1
      rw [hpch] at this
      simp only [List.length_append, List.length_take, List.length_cons, List.length_drop]
      omega) p' (fun m hm => by rw [c', if_neg hm])
    refine ⟨f1, hre, f2, ?_⟩
    rw [← e6, ← e5]
  | none =>
    obtain ⟨A', e2, -, -, p', c', -⟩ := hr.shape.wf.append_at hplt hclt hcn hanc
    rw [hsib] at e
    simp only [e2] at e
    injection e with e
    injection e with e5 e6
    obtain ⟨f1, f2⟩ := fin A' e5.symm (by
      rw [c', if_pos rfl, hpch]
      simp only [List.length_append, List.length_singleton]) p' (fun m hm => by rw [c', if_neg hm])
    refine ⟨f1, hre, f2, ?_⟩
    rw [← e6, ← e5]

theorem rehangLoop {a p pos N : Nat} (hN : ∀ n, bd n ≤ N) : ∀ (l : List (Nat × Nat)) (S S' : Shadow)
    (out ps : List Patch), S.Num bd → (l.map Prod.fst).Nodup → (∀ ci ∈ l, S.arena.parent ci.1 = some a) →
    S.arena.parent a = some p → p ≠ S.superRoot → (S.arena.children p).length + l.length ≤ bd p →
    (∀ ci ∈ l, pos + 1 + ci.2 < N) → S.nextSlot ≤ N → (∀ P ∈ out, P.Below N) →
    l.foldlM (fun (x : Shadow × List Patch) (ci : Nat × Nat) => do
        let (S, patch) ← reparentChild p pos x.1 ci.2 ci.1
        (Except.ok (S, x.2 ++ [patch]) : Res (Shadow × List Patch))) (S, out) = .ok (S', ps) →
      S'.Num bd ∧ Rehung S S' a p (l.map Prod.fst) ∧ (∀ P ∈ ps, P.Below N) ∧ ps.length = out.length + l.length
  | [], S, S', out, ps, h, _, _, _, _, _, _, _, ho, e => by
    cases e
    exact ⟨h, ⟨h.shape, rfl, rfl, Nat.le_refl _, fun m _ => by simp, fun m _ _ => by omega, fun _ _ _ => rfl⟩, ho, rfl⟩
  | ci :: l, S, S', out, ps, h, hnd, hcs, ha, hps, hroom, hpos, hsl, ho, e => by
    rw [List.foldlM_cons] at e
    obtain ⟨⟨S1, out1⟩, e1, e⟩ := res_bind e
    obtain ⟨⟨S1', P⟩, e0, e1⟩ := res_bind e1
    cases e1
    rw [List.length_cons] at hroom
    obtain ⟨h1, hr, hl1, hP⟩ := h.rehang (hcs ci (by simp)) ha hps (by omega) e0
    have hw := h.shape.wf
    simp only [List.map_cons, List.nodup_cons] at hnd
    have hne : a ≠ ci.1 := hw.self_parent_ne (hcs ci (by simp))
    have ha1 : S1.arena.parent a = some p := by
      rw [hr.old _ (hw.lt_of_parent _ _ ha).1, if_neg (by simpa using hne)]; exact ha
    obtain ⟨h2, hr2, hb2, hlen⟩ := rehangLoop hN l S1 S' _ ps h1 hnd.2 (by
        intro cj hj
        have hj' := hcs cj (by simp [hj])
        rw [hr.old _ (hw.lt_of_parent _ _ hj').1, if_neg ?_]
        · exact hj'
        · intro hx
          have hx : cj.1 = ci.1 := by simpa using hx
          exact hnd.1 (List.mem_map.2 ⟨cj, hj, hx⟩))
      ha1 (by rw [hr.super]; exact hps) (by omega) (fun cj hj => hpos cj (by simp [hj])) (by rw [hr.slot]; exact hsl)
      (by
        intro Q hQ
        rcases List.mem_append.1 hQ with hQ | hQ
        · exact ho Q hQ
        · rw [List.mem_singleton.1 hQ, hP]
          have hp0 := hpos ci (by simp)
          intro q hq i hi
          rcases List.mem_cons.1 hq with rfl | hq
          · exact h.path hN hsl (by omega) ci.1 i hi
          · rw [List.mem_singleton.1 hq] at hi
            exact h1.refWithPos hN (by rw [hr.slot]; exact hsl) p hp0 i hi) e
    refine ⟨h2, hr.cons hr2 ?_, hb2, ?_⟩
    · intro x hx
      obtain ⟨cj, hj, rfl⟩ := List.mem_map.1 hx
      exact (hw.lt_of_parent _ _ (hcs cj (by simp [hj]))).1
    · rw [hlen]; simp only [List.length_append, List.length_cons, List.length_nil]; omega

/-- The children of `a` are moved next to `a`. -/
theorem reparent (h : S.Num bd) {a p N : Nat} {ps : List Patch} (hN : ∀ n, bd n ≤ N) (hsl : S.nextSlot ≤ N)
    (ha : S.arena.parent a = some p) (hps : p ≠ S.superRoot)
    (hroom : (S.arena.children p).length + (S.arena.children a).length ≤ bd p)
    (e : reparentChildren S a = .ok (S', ps)) :
    S'.Num bd ∧ Rehung S S' a p (S.arena.children a).reverse ∧ (∀ P ∈ ps, P.Below N) ∧
      ps.length = (S.arena.children a).length := by
  have hw := h.shape.wf
  have hmap : ((S.arena.children a).zipIdx.reverse.map Prod.fst) = (S.arena.children a).reverse := by
    rw [List.map_reverse, List.zipIdx_map_fst]
  unfold reparentChildren at e
  simp only [ha] at e
  have hpos : Arena.posIn (S.arena.children p) a < (S.arena.children p).length := by
    unfold Arena.posIn
    have hm := (hw.mem_iff _ _).2 ha
    rw [if_pos hm]
    exact List.idxOf_lt_length_of_mem hm
  obtain ⟨h1, h2, h3, h4⟩ := rehangLoop hN (S.arena.children a).zipIdx.reverse S S' [] ps h
    (by rw [hmap]; exact List.pairwise_reverse.2 ((hw.nodup a).imp fun hne => hne.symm))
    (by
      intro ci hci
      have : ci.1 ∈ (S.arena.children a).zipIdx.reverse.map Prod.fst := List.mem_map.2 ⟨ci, hci, rfl⟩
      rw [hmap, List.mem_reverse] at this
      exact (hw.mem_iff _ _).1 this)
    ha hps (by rw [List.length_reverse, List.length_zipIdx]; exact hroom)
    (by
      intro ci hci
      have hlt := (List.mem_zipIdx (List.mem_reverse.1 hci)).2.1
      have := hN p
      omega) hsl (by simp) e
  rw [hmap] at h2
  exact ⟨h1, h2, h3, by rw [h4, List.length_reverse, List.length_zipIdx, List.length_nil, Nat.zero_add]⟩

end Shadow.Num

theorem ConvOk.parentOf_eq {A : Arena TData} {M : Matching} {S : Shadow} {bts : Nat → Option Nat} {Mv Dl : Nat → Prop}
    (hc : ConvOk A M S bts Mv Dl) {pb sp : Nat} (hsp : Conv.parentOf ⟨S, bts⟩ pb = .ok sp) : sp = (bts pb).getD 0 := by
  have h0 := hc.slot0
  rw [List.head?_eq_getElem?] at h0
  unfold Conv.parentOf at hsp
  cases eb : bts pb with
  | some s => simp only [eb] at hsp; cases hsp; rfl
  | none =>
    simp only [eb, Shadow.slot0Content, Shadow.getSlot, hc.super, h0, hc.only0] at hsp
    cases hsp; rfl

theorem count_transfer {a p : Nat} (hpa : p ≠ a) (n : Nat) (L : List Nat) :
    (L.map fun x => if x = a then p else x).count n =
      if n = a then 0 else if n = p then L.count p + L.count a else L.count n := by
  induction L with
  | nil => simp
  | cons x L ih =>
    rw [List.map_cons, List.count_cons, ih, List.count_cons, List.count_cons, List.count_cons]
    by_cases h1 : n = a
    · subst h1
      by_cases h2 : x = n
      · simp [h2, hpa]
      · simp [h2]
    · by_cases h2 : n = p
      · subst h2
        by_cases h3 : x = a
        · subst h3; simp [h1, hpa, Ne.symm hpa]; omega
        · simp [h1, h3]; omega
      · by_cases h3 : x = a
        · subst h3; simp [h1, h2, Ne.symm h1, Ne.symm h2]
        · simp [h1, h2, h3]

/-- The state of a conversion with tokens: `L` lists the owners of the tokens, `g` counts tokens that stay where they
are. `D` are the nodes of the new tree that matter, `rem` those that are still to be inserted, `mv` those to be moved. -/
structure Bud (A B : Arena TData) (D : List Nat) (M : Matching) (T : Nat) (L : List Nat) (g : Nat → Nat) (rem mv : List Nat)
    (S : Shadow) (bts : Nat → Option Nat) : Prop where
  num : S.Num (fun n => L.count n + g n)
  super : S.superRoot = A.next
  one : ∀ n, A.next < n → 1 ≤ g n
  room : ∀ b, b ∈ D → b ∉ rem → (B.children b).length ≤ L.count ((bts b).getD 0) + g ((bts b).getD 0)
  pair : ∀ a b, (a, b) ∈ M.pairs → (B.children b).length ≤ L.count a + g a
  zero : ∀ a ∈ mv, g a = 0
  small : ∀ n, g n ≤ T
  len : L.length + (rem.flatMap B.children).length ≤ T

namespace Bud

variable {A B : Arena TData} {D : List Nat} {M : Matching} {T N : Nat} {L : List Nat} {g : Nat → Nat} {rem mv ins : List Nat}
  {S S' : Shadow} {bts bts' : Nat → Option Nat} {ps : List Patch}

theorem bound (h : Bud A B D M T L g rem mv S bts) (n : Nat) : L.count n + g n ≤ 2 * T := by
  have h1 : L.count n ≤ L.length := List.count_le_length
  have := h.len
  have := h.small n
  omega

theorem path (h : Bud A B D M T L g rem mv S bts) (hN : 2 * T ≤ N) (h0 : 0 < N) (hs : S.nextSlot ≤ N) (n : Nat) :
    ∀ i ∈ S.computePath n, i < N :=
  h.num.path (fun n => Nat.le_trans (h.bound n) hN) hs h0 n

theorem insert {b pb pos : Nat} {kind : HKind} {Mv Dl : Nat → Prop} (h : Bud A B D M T L g (b :: rem) mv S bts)
    (hc : ConvOk A M S bts Mv Dl) (hA0 : 0 < A.next)
    (hN : 2 * T ≤ N) (hpb : pb ∈ D) (hnr : pb ∉ b :: rem) (hpos : pos < (B.children pb).length)
    (e : convertOp B ins ⟨S, bts⟩ (.insert b pb pos kind) = .ok (⟨S', bts'⟩, ps)) (hs : S'.nextSlot ≤ N) :
    (∃ L', Bud A B D M T L' g rem mv S' bts') ∧ (∀ P ∈ ps, P.Below N) ∧ countSort .move ps = 0 := by
  obtain ⟨sp, hsp, ht, -⟩ := hc.parentOf hA0 pb
  have hspd := hc.parentOf_eq hsp
  have hroom := h.room pb hpb hnr
  rw [← hspd] at hroom
  simp only [convertOp] at e
  obtain ⟨sp', hsp', e⟩ := res_bind e
  rw [hsp] at hsp'; cases hsp'
  obtain ⟨⟨S2, slot⟩, h1, e⟩ := res_bind e
  injection e with e
  injection e with eC eP
  injection eC with e2 e3
  have e2 : S2 = S' := e2
  subst e2 e3 eP
  have i1 := ht.lt
  have i2 : sp ≠ S.superRoot := by rw [h.super]; exact ht.ne
  have hw := h.num.shape.wf
  have hsl := h.num.shape.super_lt
  have hn1 := h.num.newNode (⟨kind, (B.data b).props, (B.data b).text⟩ : TData)
  obtain ⟨S3, slot', e', hpl⟩ := Shadow.insertAtPosition_placed hn1.shape (x := S.arena.next) (p := sp)
    (pos := pos)
    (by show sp < S.arena.next + 1; omega) (by show S.arena.next < S.arena.next + 1; omega)
    (by simp [Arena.newNode])
    (by
      show ¬ (S.arena.newNode _).1.Anc _ _
      rw [hw.anc_newNode]
      intro ha
      have := hw.anc_lt ha i1
      omega)
    i2
    (by show S.arena.next ≠ S.superRoot; omega)
  have e1 : Shadow.insertAtPosition { S with arena := (S.arena.newNode
      ⟨kind, (B.data b).props, (B.data b).text⟩).1 } sp pos S.arena.next = .ok (S2, slot) := h1
  rw [e1] at e'
  injection e' with e'
  injection e' with e5 e6
  subst e5
  have hn2 := hn1.placed i2 (Nat.lt_of_lt_of_le hpos hroom)
    (fun n hn => by have hn' : S.superRoot < n := hn; rw [h.super] at hn'; have := h.one n hn'; omega) hpl
  have hsup : S2.superRoot = S.superRoot := by
    rcases hpl with ⟨_, hpl, _⟩ | ⟨hpl, _⟩ <;> rw [hpl.super]
  have hcount : ∀ n, L.count n ≤ (L ++ List.replicate (B.children b).length S.arena.next).count n := by
    intro n; rw [List.count_append]; exact Nat.le_add_right _ _
  refine ⟨⟨L ++ List.replicate (B.children b).length S.arena.next, ?_, hsup.trans h.super, h.one, ?_, ?_, h.zero,
    h.small, ?_⟩, ?_, ?_⟩
  · exact hn2.mono fun n => Nat.add_le_add_right (hcount n) _
  · intro b' hb' hr
    by_cases eb : b' = b
    · subst eb
      rw [Arena.upd_apply, if_pos rfl, Arena.newNode_snd]
      simp only [Option.getD_some, List.count_append, List.count_replicate_self]
      exact Nat.le_trans (Nat.le_add_left _ _) (Nat.le_add_right _ _)
    · rw [Arena.upd_apply, if_neg eb]
      refine Nat.le_trans (h.room b' hb' ?_) (Nat.add_le_add_right (hcount _) _)
      simp [eb, hr]
  · intro a b' hab
    exact Nat.le_trans (h.pair a b' hab) (Nat.add_le_add_right (hcount _) _)
  · have := h.len
    simp only [List.flatMap_cons, List.length_append] at this
    rw [List.length_append, List.length_replicate]
    omega
  · intro P hP
    rw [List.mem_singleton.1 hP]
    have hb2 := h.bound sp
    have := hn2.refWithPos (N := N) (fun n => Nat.le_trans (h.bound n) hN) hs sp (pos := pos) (by omega)
    intro q hq i hi
    have hq' : q = S2.refWithPos sp pos := by
      cases kind <;> simpa [Patch.paths] using hq
    rw [hq'] at hi
    exact this i hi
  · cases kind <;> rfl

theorem move {a b pb pos : Nat} {Mv : Nat → Prop} (h : Bud A B D M T L g [] (a :: mv) S bts)
    (hc : ConvOk A M S bts Mv (fun _ => False)) (hA0 : 0 < A.next) (hnd : (M.pairs.map Prod.fst).Nodup) (hB : B.WF)
    (hab : (a, b) ∈ M.pairs) (ha : a < A.next) (ha0 : a ≠ 0) (hpb : B.parent b = some pb) (hpD : pb ∈ D) (hmv : ¬ Mv a)
    (ham : a ∉ mv) (hN : 2 * T ≤ N) (hpos : pos < (B.children pb).length)
    (e : convertOp B ins ⟨S, bts⟩ (.move a b pb pos) = .ok (⟨S', bts'⟩, ps)) (hs : S'.nextSlot ≤ N) :
    (∃ L' g', Bud A B D M T L' g' [] mv S' bts') ∧ (∀ P ∈ ps, P.Below N) ∧ countSort .move ps ≤ T + 1 := by
  have hs0 : S.nextSlot ≤ N := by
    obtain ⟨k, hk, _⟩ := convertOp_next e
    have hk' : S'.nextSlot = S.nextSlot + k := hk
    omega
  obtain ⟨sp, hsp, ht, hin⟩ := hc.parentOf hA0 pb
  have hspd := hc.parentOf_eq hsp
  have hw := h.num.shape.wf
  have hspa : sp ≠ a := by
    rintro rfl
    rcases hin with e | e
    · exact ha0 e
    · have := ConvOk.nodup_fst_inj hnd hab (e ha)
      exact hB.self_parent_ne hpb this.symm
  have hgt := hc.gt
  obtain ⟨p, hp⟩ := hc.rooted a (by omega) (by omega) (fun hx => hx)
  have hps : p ≠ A.next := by
    rintro rfl; exact hc.orig a ha (by show S.arena.parent a = _; rw [hp, hc.super])
  have hpa : p ≠ a := hw.self_parent_ne hp
  have hsl := h.num.shape.super_lt
  have has : a ≠ S.superRoot := by rw [h.super]; omega
  have h0N : 0 < N := by
    have := h.one (A.next + 1) (by omega)
    have := h.small (A.next + 1)
    omega
  simp only [convertOp] at e
  obtain ⟨sp', hsp', e⟩ := res_bind e
  rw [hsp] at hsp'; cases hsp'
  -- after the optional detour
  obtain ⟨S1, pre, L1, g1, hb1, hanc, hle, hpre, hcnt, e⟩ : ∃ S1 pre L1 g1, Bud A B D M T L1 g1 [] mv S1 bts ∧
      ¬ S1.arena.Anc a sp ∧ S.arena.next ≤ S1.arena.next ∧ (∀ P ∈ pre, P.Below N) ∧ pre.length ≤ T ∧
      (S1.moveToPosition a sp pos >>= fun r => (Except.ok (⟨r.1, Arena.upd bts b (some a)⟩,
        pre ++ [Patch.move (S1.computePath a) (r.1.refWithPos sp pos) r.2]) : Res (Conv × List Patch))) =
          .ok (⟨S', bts'⟩, ps) := by
    by_cases hia : S.isAncestor a sp = true
    · rw [if_pos hia] at e
      obtain ⟨⟨S1, pre⟩, e1, e⟩ := res_bind e
      obtain ⟨S1', ps', e1', -, -, hle, -, hno⟩ := hc.reparent ha ha0 hmv
      rw [e1] at e1'
      injection e1' with e1'
      injection e1' with e5 e6
      subst e5
      -- the tokens of `a` go to `p`
      let L1 := L.map fun x => if x = a then p else x
      let g1 := Arena.upd g a (L.count a)
      have hga : g a = 0 := h.zero a (by simp)
      have hbd : ∀ n, L1.count n + g1 n = if n = p then (L.count p + g p) + (L.count a + g a) else L.count n + g n := by
        intro n
        simp only [L1, g1, count_transfer hpa, Arena.upd_apply]
        by_cases e1 : n = a
        · subst e1; simp [Ne.symm hpa, hga]
        · by_cases e2 : n = p
          · subst e2; simp [e1, hga]; omega
          · simp [e1, e2]
      have hmono : ∀ n, L.count n + g n ≤ L1.count n + g1 n := by
        intro n; rw [hbd]; split
        · next e => subst e; omega
        · exact Nat.le_refl _
      have hlen1 : L1.length = L.length := List.length_map _
      have hsm : ∀ n, g1 n ≤ T := by
        intro n
        simp only [g1, Arena.upd_apply]
        split
        · have h1 : L.count a ≤ L.length := List.count_le_length
          have := h.len
          omega
        · exact h.small n
      have hbN : ∀ n, L1.count n + g1 n ≤ N := by
        intro n
        have h1 : L1.count n ≤ L1.length := List.count_le_length
        have := h.len
        have := hsm n
        omega
      have hfp := h.num.fan p (by rw [h.super]; exact hps)
      have hfa := h.num.fan a has
      obtain ⟨hn, hr, hbel, hpl⟩ := (h.num.mono hmono).reparent hbN hs0 hp (by rw [h.super]; exact hps)
        (by rw [hbd, if_pos rfl]; omega) e1
      refine ⟨S1, pre, L1, g1, ⟨hn, hr.super.trans h.super, ?_, ?_, ?_, ?_, hsm, ?_⟩, hno sp ht.lt hspa, hle, hbel, ?_, e⟩
      · intro n hn
        simp only [g1, Arena.upd_apply]
        rw [if_neg (by omega)]
        exact h.one n hn
      · intro b' hb' hr'; exact Nat.le_trans (h.room b' hb' hr') (hmono _)
      · intro a' b' hab'; exact Nat.le_trans (h.pair a' b' hab') (hmono _)
      · intro x hx
        simp only [g1, Arena.upd_apply]
        rw [if_neg (by rintro rfl; exact ham hx)]
        exact h.zero x (List.mem_cons_of_mem _ hx)
      · rw [hlen1]; exact h.len
      · have h1 : L.count a ≤ L.length := List.count_le_length
        have := h.len
        omega
    · rw [if_neg hia] at e
      obtain ⟨⟨S1, pre⟩, e1, e⟩ := res_bind e
      injection e1 with e1
      injection e1 with e5 e6
      subst e5 e6
      refine ⟨S, [], L, g, { h with zero := fun x hx => h.zero x (List.mem_cons_of_mem _ hx) }, ?_, Nat.le_refl _,
        by simp, Nat.zero_le _, e⟩
      intro hx
      exact hia ((Shadow.isAncestor_iff hw).2 ⟨hx, hspa.symm⟩)
  obtain ⟨⟨S2, slot⟩, e2, e⟩ := res_bind e
  injection e with e
  injection e with eC eP
  injection eC with e3 e4
  have e3 : S2 = S' := e3
  subst e3 e4 eP
  have hroom := hb1.room pb hpD (by simp)
  rw [← hspd] at hroom
  have hbN : ∀ n, L1.count n + g1 n ≤ N := fun n => Nat.le_trans (hb1.bound n) hN
  obtain ⟨hn, hsup, hle2⟩ := hb1.num.moveTo (by rw [hb1.super]; exact ha) (Nat.lt_of_lt_of_le ht.lt hle)
    (by rw [hb1.super]; exact ht.ne) (Nat.lt_of_lt_of_le hpos hroom)
    (fun n hn => by rw [hb1.super] at hn; have := hb1.one n hn; omega)
    (fun hx => hanc ((Shadow.isAncestor_iff hb1.num.shape.wf).1 hx).1) e2
  refine ⟨⟨L1, g1, hn, hsup.trans hb1.super, hb1.one, ?_, hb1.pair, hb1.zero, hb1.small, hb1.len⟩, ?_, ?_⟩
  · intro b' hb' hr'
    by_cases eb : b' = b
    · subst eb
      rw [Arena.upd_apply, if_pos rfl]
      exact hb1.pair a b' hab
    · rw [Arena.upd_apply, if_neg eb]
      exact hb1.room b' hb' hr'
  · intro P hP
    rcases List.mem_append.1 hP with hP | hP
    · exact hpre P hP
    · rw [List.mem_singleton.1 hP]
      have hs1 : S1.nextSlot ≤ N := by
        rcases Shadow.moveToPosition_next e2 with ⟨_, e⟩ | ⟨_, e⟩ <;> omega
      intro q hq i hi
      rcases List.mem_cons.1 hq with rfl | hq
      · exact hb1.num.path hbN hs1 h0N a i hi
      · rw [List.mem_singleton.1 hq] at hi
        exact hn.refWithPos hbN hs sp (Nat.lt_of_lt_of_le (Nat.lt_of_lt_of_le hpos hroom) (hbN sp)) i hi
  · refine Nat.le_trans List.countP_le_length ?_
    rw [List.length_append]
    simp only [List.length_cons, List.length_nil]
    omega

/-- Insertions. -/
theorem inserts {Mv : Nat → Prop} (hA0 : 0 < A.next) (hN : 2 * T ≤ N) : ∀ (ops : List EditOp) {L : List Nat} {S S' : Shadow}
    {bts bts' : Nat → Option Nat} {ps : List Patch},
    (∀ op ∈ ops, ∃ b pb pos kind, op = .insert b pb pos kind ∧ pb ∈ D ∧ pos < (B.children pb).length) →
    (∀ l1 b l2 pb pos kind, ops = l1 ++ .insert b pb pos kind :: l2 → pb ∉ insertedNodes (.insert b pb pos kind :: l2)) →
    Bud A B D M T L g (insertedNodes ops) mv S bts → ConvOk A M S bts Mv (fun _ => False) →
    convertLoop B ins ⟨S, bts⟩ ops = .ok (⟨S', bts'⟩, ps) → S'.nextSlot ≤ N →
    (∃ L', Bud A B D M T L' g [] mv S' bts') ∧ ConvOk A M S' bts' Mv (fun _ => False) ∧ (∀ P ∈ ps, P.Below N) ∧
      countSort .move ps = 0
  | [], L, S, S', bts, bts', ps, _, _, h, hc, e, hs => by
    injection e with e
    injection e with eC eP
    injection eC with e3 e4
    have e3 : S = S' := e3
    subst e3 e4 eP
    exact ⟨⟨L, h⟩, hc, by simp, rfl⟩
  | op :: ops, L, S, S', bts, bts', ps, hops, hfirst, h, hc, e, hs => by
    obtain ⟨b, pb, pos, kind, rfl, hpb, hpos⟩ := hops op (by simp)
    obtain ⟨⟨⟨S1, bts1⟩, qs⟩, e1, e⟩ := res_bind e
    obtain ⟨⟨⟨S2, bts2⟩, rs⟩, e2, e⟩ := res_bind e
    injection e with e
    injection e with eC eP
    injection eC with e3 e4
    have e3 : S2 = S' := e3
    subst e3 e4 eP
    have hs1 : S1.nextSlot ≤ N := by
      obtain ⟨k, hk, _⟩ := convertLoop_next e2
      have hk' : S2.nextSlot = S1.nextSlot + k := hk
      omega
    obtain ⟨⟨L1, h1⟩, hb1, hm1⟩ := h.insert hc hA0 hN hpb (hfirst [] b ops pb pos kind rfl) hpos e1 hs1
    obtain ⟨S1', bts1', P1, e1', -, hc1⟩ := hc.insert hA0 B ins b pb pos kind
    rw [e1] at e1'
    injection e1' with e1'
    injection e1' with eC eP
    injection eC with e3 e4
    have e3 : S1 = S1' := e3
    subst e3 e4
    obtain ⟨h2, hc2, hb2, hm2⟩ := inserts hA0 hN ops (fun o ho => hops o (List.mem_cons_of_mem _ ho))
      (fun l1 b' l2 pb' pos' kind' e => hfirst (_ :: l1) b' l2 pb' pos' kind' (by rw [e]; rfl)) h1 hc1 e2 hs
    refine ⟨h2, hc2, ?_, by rw [countSort_append, hm1, hm2]⟩
    intro P hP
    rcases List.mem_append.1 hP with hP | hP
    · exact hb1 P hP
    · exact hb2 P hP

/-- Moves. -/
theorem moves (hA0 : 0 < A.next) (hN : 2 * T ≤ N) (hnd : (M.pairs.map Prod.fst).Nodup) (hB : B.WF) :
    ∀ (ops : List EditOp) {Mv : Nat → Prop} {L : List Nat} {g : Nat → Nat} {S S' : Shadow}
    {bts bts' : Nat → Option Nat} {ps : List Patch},
    (∀ op ∈ ops, ∃ a b pb pos, op = .move a b pb pos ∧ (a, b) ∈ M.pairs ∧ a < A.next ∧ a ≠ 0 ∧
      B.parent b = some pb ∧ pb ∈ D ∧ pos < (B.children pb).length ∧ ¬ Mv a) →
    (movedNodes ops).Nodup →
    Bud A B D M T L g [] (movedNodes ops) S bts → ConvOk A M S bts Mv (fun _ => False) →
    convertLoop B ins ⟨S, bts⟩ ops = .ok (⟨S', bts'⟩, ps) → S'.nextSlot ≤ N →
    (∃ L' g', Bud A B D M T L' g' [] [] S' bts') ∧ (∀ P ∈ ps, P.Below N) ∧
      countSort .move ps ≤ (movedNodes ops).length * (T + 1)
  | [], Mv, L, g, S, S', bts, bts', ps, _, _, h, hc, e, hs => by
    injection e with e
    injection e with eC eP
    injection eC with e3 e4
    have e3 : S = S' := e3
    subst e3 e4 eP
    exact ⟨⟨L, g, h⟩, by simp, Nat.zero_le _⟩
  | op :: ops, Mv, L, g, S, S', bts, bts', ps, hops, hndm, h, hc, e, hs => by
    obtain ⟨a, b, pb, pos, rfl, hab, ha, ha0, hpb, hpD, hpos, hmv⟩ := hops op (by simp)
    obtain ⟨⟨⟨S1, bts1⟩, qs⟩, e1, e⟩ := res_bind e
    obtain ⟨⟨⟨S2, bts2⟩, rs⟩, e2, e⟩ := res_bind e
    injection e with e
    injection e with eC eP
    injection eC with e3 e4
    have e3 : S2 = S' := e3
    subst e3 e4 eP
    have hs1 : S1.nextSlot ≤ N := by
      obtain ⟨k, hk, _⟩ := convertLoop_next e2
      have hk' : S2.nextSlot = S1.nextSlot + k := hk
      omega
    have hcons : movedNodes (.move a b pb pos :: ops) = a :: movedNodes ops := rfl
    rw [hcons] at h hndm
    rw [List.nodup_cons] at hndm
    obtain ⟨⟨L1, g1, h1⟩, hb1, hm1⟩ := h.move hc hA0 hnd hB hab ha ha0 hpb hpD hmv hndm.1 hN hpos e1 hs1
    obtain ⟨S1', bts1', P1, e1', -, hc1⟩ := hc.move hA0 hnd B hB ins pos hab ha ha0 hpb hmv
    rw [e1] at e1'
    injection e1' with e1'
    injection e1' with eC eP
    injection eC with e3 e4
    have e3 : S1 = S1' := e3
    subst e3 e4
    obtain ⟨h2, hb2, hm2⟩ := moves hA0 hN hnd hB ops (Mv := fun x => Mv x ∨ x = a) (by
        intro o ho
        obtain ⟨a', b', pb', pos', rfl, k1, k2, k3, k4, kD, k5, k6⟩ := hops o (List.mem_cons_of_mem _ ho)
        refine ⟨a', b', pb', pos', rfl, k1, k2, k3, k4, kD, k5, ?_⟩
        rintro (k | rfl)
        · exact k6 k
        · exact hndm.1 (List.mem_filterMap.2 ⟨_, ho, rfl⟩)) hndm.2 h1 hc1 e2 hs
    refine ⟨h2, ?_, ?_⟩
    · intro P hP
      rcases List.mem_append.1 hP with hP | hP
      · exact hb1 P hP
      · exact hb2 P hP
    · rw [countSort_append, hcons, List.length_cons, Nat.add_mul, Nat.one_mul]
      omega

end Bud

/-- Deletions. -/
theorem Shadow.Num.deletes {B : Arena TData} {ins : List Nat} {bd : Nat → Nat} {N : Nat} (hN : ∀ n, bd n ≤ N) (h0 : 0 < N) :
    ∀ (ops : List EditOp) {C C' : Conv} {ps : List Patch},
    (∀ op ∈ ops, ∃ a, op = .delete a ∧ a < C.shadow.superRoot) → C.shadow.Num bd → C.shadow.nextSlot ≤ N →
    convertLoop B ins C ops = .ok (C', ps) → (∀ P ∈ ps, P.Below N) ∧ countSort .move ps = 0
  | [], C, C', ps, _, _, _, e => by cases e; exact ⟨by simp, rfl⟩
  | op :: ops, C, C', ps, hops, h, hs, e => by
    obtain ⟨a, rfl, ha⟩ := hops op (by simp)
    obtain ⟨⟨C1, qs⟩, e1, e⟩ := res_bind e
    obtain ⟨⟨C2, rs⟩, e2, e⟩ := res_bind e
    cases e
    simp only [convertOp] at e1
    obtain ⟨S1, h1, e1⟩ := res_bind e1
    cases e1
    obtain ⟨hn, hout⟩ := h.detach ha h1
    obtain ⟨k1, k2⟩ := Shadow.Num.deletes hN h0 ops (C := { C with shadow := S1 }) (by
      intro o ho
      obtain ⟨a', e', ha'⟩ := hops o (List.mem_cons_of_mem _ ho)
      exact ⟨a', e', by show a' < S1.superRoot; rw [hout.super]; exact ha'⟩) hn
      (by show S1.nextSlot ≤ N; rw [Shadow.detachWithPlaceholder_next h1]; exact hs) e2
    refine ⟨?_, by rw [countSort_append, k2]; rfl⟩
    intro P hP
    rcases List.mem_append.1 hP with hP | hP
    · rw [List.mem_singleton.1 hP]
      intro q hq
      simp only [Patch.paths, List.mem_singleton] at hq
      subst hq
      exact h.path hN hs h0 a
    · exact k1 P hP

/-- Updates. -/
theorem Shadow.Num.updates {B : Arena TData} {ins : List Nat} {bd : Nat → Nat} {N : Nat} (hN : ∀ n, bd n ≤ N) (h0 : 0 < N) :
    ∀ (ops : List EditOp) {C C' : Conv} {ps : List Patch},
    (∀ op ∈ ops, op.phase = 0) → C.shadow.Num bd → C.shadow.nextSlot ≤ N →
    convertLoop B ins C ops = .ok (C', ps) → C' = C ∧ (∀ P ∈ ps, P.Below N) ∧ countSort .move ps = 0
  | [], C, C', ps, _, _, _, e => by cases e; exact ⟨rfl, by simp, rfl⟩
  | op :: ops, C, C', ps, hops, h, hs, e => by
    obtain ⟨⟨C1, qs⟩, e1, e⟩ := res_bind e
    obtain ⟨⟨C2, rs⟩, e2, e⟩ := res_bind e
    cases e
    have hp := hops op (by simp)
    have key : C1 = C ∧ (∀ P ∈ qs, P.Below N) ∧ countSort .move qs = 0 := by
      cases op with
      | updateProps a b ch =>
        cases e1
        refine ⟨rfl, fun P hP => ?_, rfl⟩
        rw [List.mem_singleton.1 hP]
        intro q hq
        simp only [Patch.paths, List.mem_singleton] at hq
        subst hq
        exact h.path hN hs h0 a
      | setText a b t =>
        cases e1
        refine ⟨rfl, fun P hP => ?_, rfl⟩
        rw [List.mem_singleton.1 hP]
        intro q hq
        simp only [Patch.paths, List.mem_singleton] at hq
        subst hq
        exact h.path hN hs h0 a
      | insert _ _ _ _ => cases hp
      | move _ _ _ _ => cases hp
      | delete _ => cases hp
    obtain ⟨rfl, k1, k2⟩ := key
    obtain ⟨rfl, k3, k4⟩ := Shadow.Num.updates hN h0 ops (fun o ho => hops o (List.mem_cons_of_mem _ ho)) h hs e2
    refine ⟨rfl, ?_, by rw [countSort_append, k2, k4]⟩
    intro P hP
    rcases List.mem_append.1 hP with hP | hP
    · exact k1 P hP
    · exact k3 P hP

end Hotmeal
