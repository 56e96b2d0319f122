import Verif.Lemmas.Convert
import Verif.Props.Script

set_option autoImplicit false
set_option linter.unusedSectionVars false

/-!
# The conversion of a whole edit script
-/

namespace Hotmeal

variable {H : Type} [DecidableEq H]

theorem convertLoop_append {B : Arena TData} {ins : List Nat} {l r : List EditOp} :
    ∀ {C C1 C2 : Conv} {ps qs : List Patch}, convertLoop B ins C l = .ok (C1, ps) →
      convertLoop B ins C1 r = .ok (C2, qs) → convertLoop B ins C (l ++ r) = .ok (C2, ps ++ qs) := by
  induction l with
  | nil => intro C C1 C2 ps qs h1 h2; cases h1; exact h2
  | cons op l ih =>
    intro C C1 C2 ps qs h1 h2
    simp only [convertLoop, bind, Except.bind] at h1
    cases e : convertOp B ins C op with
    | error err => rw [e] at h1; cases h1
    | ok v =>
      obtain ⟨C', p1⟩ := v
      rw [e] at h1
      simp only at h1
      cases e2 : convertLoop B ins C' l with
      | error err => rw [e2] at h1; cases h1
      | ok v =>
        obtain ⟨C'', p2⟩ := v
        rw [e2] at h1
        cases h1
        simp only [List.cons_append, convertLoop, bind, Except.bind, e, ih e2 h2, List.append_assoc]

theorem convertLoop_cons {B : Arena TData} {ins : List Nat} {op : EditOp} {r : List EditOp} {C C1 C2 : Conv}
    {ps qs : List Patch} (h1 : convertOp B ins C op = .ok (C1, ps))
    (h2 : convertLoop B ins C1 r = .ok (C2, qs)) : convertLoop B ins C (op :: r) = .ok (C2, ps ++ qs) := by
  simp only [convertLoop, bind, Except.bind, h1, h2]

namespace ConvOk

variable {A B : Arena TData} {M : Matching} {ins : List Nat}

/-- Updates. -/
theorem updates (C : Conv) (ops : List EditOp) (hops : ∀ op ∈ ops, op.phase = 0) :
    ∃ ps, convertLoop B ins C ops = .ok (C, ps) ∧ ∀ P ∈ ps, P.SparesRoot := by
  induction ops with
  | nil => exact ⟨[], rfl, by simp⟩
  | cons op ops ih =>
    obtain ⟨qs, e, hq⟩ := ih fun o ho => hops o (List.mem_cons_of_mem _ ho)
    have h0 := hops op (by simp)
    cases op with
    | updateProps a b ch =>
      refine ⟨_, convertLoop_cons rfl e, ?_⟩
      intro P hP
      rcases List.mem_append.1 hP with h | h
      · rw [List.mem_singleton.1 h]; trivial
      · exact hq P h
    | setText a b t =>
      refine ⟨_, convertLoop_cons rfl e, ?_⟩
      intro P hP
      rcases List.mem_append.1 hP with h | h
      · rw [List.mem_singleton.1 h]; trivial
      · exact hq P h
    | insert _ _ _ _ => cases h0
    | move _ _ _ _ => cases h0
    | delete _ => cases h0

/-- Inserts. -/
theorem inserts (hpos : 0 < A.next) {Mv : Nat → Prop} (ops : List EditOp)
    (hops : ∀ op ∈ ops, op.phase = 1) :
    ∀ {S : Shadow} {bts : Nat → Option Nat}, ConvOk A M S bts Mv (fun _ => False) →
    ∃ S' bts' ps, convertLoop B ins ⟨S, bts⟩ ops = .ok (⟨S', bts'⟩, ps) ∧ (∀ P ∈ ps, P.SparesRoot) ∧
      ConvOk A M S' bts' Mv (fun _ => False) := by
  induction ops with
  | nil => intro S bts h; exact ⟨S, bts, [], rfl, by simp, h⟩
  | cons op ops ih =>
    intro S bts h
    have h0 := hops op (by simp)
    cases op with
    | insert b pb pos kind =>
      obtain ⟨S1, bts1, P1, e1, hP1, h1⟩ := h.insert hpos B ins b pb pos kind
      obtain ⟨S2, bts2, qs, e2, hq, h2⟩ := ih (fun o ho => hops o (List.mem_cons_of_mem _ ho)) h1
      refine ⟨S2, bts2, _, convertLoop_cons e1 e2, ?_, h2⟩
      intro P hP
      rcases List.mem_append.1 hP with h | h
      · rw [List.mem_singleton.1 h]; exact hP1
      · exact hq P h
    | updateProps _ _ _ => cases h0
    | setText _ _ _ => cases h0
    | move _ _ _ _ => cases h0
    | delete _ => cases h0

/-- Moves. -/
theorem moves {hashNode : HKind → Option Str → List H → H} (hA : A.WF) (hB : B.WF) (hpos : 0 < A.next)
    (h0 : A.parent 0 = none) {nb : Nat} {oA oB : List Nat} (hnd : (M.pairs.map Prod.fst).Nodup)
    (hM : ∀ a b, (a, b) ∈ M.pairs → a < A.next) :
    ∀ (l : List (Nat × Nat)) {S : Shadow} {bts : Nat → Option Nat} {Mv : Nat → Prop},
      (∀ p ∈ l, p ∈ M.pairs) → (l.map Prod.fst).Nodup → (∀ p ∈ l, ¬ Mv p.1) →
      ConvOk A M S bts Mv (fun _ => False) →
    ∃ S' bts' ps, convertLoop B ins ⟨S, bts⟩ (l.flatMap (moveOp (DiffTree.ofArena hashNode A 0)
        (DiffTree.ofArena hashNode B nb) M oA oB)) = .ok (⟨S', bts'⟩, ps) ∧ (∀ P ∈ ps, P.SparesRoot) ∧
      ConvOk A M S' bts' (fun x => Mv x ∨ x ∈ l.map Prod.fst) (fun _ => False) := by
  intro l
  induction l with
  | nil =>
    intro S bts Mv _ _ _ h
    refine ⟨S, bts, [], rfl, by simp, ?_⟩
    have : (fun x => Mv x ∨ x ∈ ([] : List (Nat × Nat)).map Prod.fst) = Mv := by
      funext x; simp
    rw [this]; exact h
  | cons p l ih =>
    obtain ⟨a, b⟩ := p
    intro S bts Mv hl hnl hmv h
    simp only [List.map_cons, List.nodup_cons] at hnl
    have hab := hl (a, b) (by simp)
    obtain ⟨S1, bts1, ps1, e1, hp1, h1⟩ : ∃ S1 bts1 ps1, convertLoop B ins ⟨S, bts⟩
        (moveOp (DiffTree.ofArena hashNode A 0) (DiffTree.ofArena hashNode B nb) M oA oB (a, b)) =
          .ok (⟨S1, bts1⟩, ps1) ∧ (∀ P ∈ ps1, P.SparesRoot) ∧
        ConvOk A M S1 bts1 (fun x => Mv x ∨ x = a) (fun _ => False) := by
      have hskip : ∃ S1 bts1 ps1, convertLoop B ins ⟨S, bts⟩ [] = .ok (⟨S1, bts1⟩, ps1) ∧
          (∀ P ∈ ps1, P.SparesRoot) ∧ ConvOk A M S1 bts1 (fun x => Mv x ∨ x = a) (fun _ => False) := by
        refine ⟨S, bts, [], rfl, by simp, ?_⟩
        exact { h with
          above := fun x hx hnx p hp => h.above x hx (fun hm => hnx (.inl hm)) p hp }
      have hdo : ∀ pa pb, A.parent a = some pa → B.parent b = some pb → ∀ pos,
          ∃ S1 bts1 ps1, convertLoop B ins ⟨S, bts⟩ [.move a b pb pos] = .ok (⟨S1, bts1⟩, ps1) ∧
          (∀ P ∈ ps1, P.SparesRoot) ∧ ConvOk A M S1 bts1 (fun x => Mv x ∨ x = a) (fun _ => False) := by
        intro pa pb hpa hpb pos
        have ha0 : a ≠ 0 := by rintro rfl; rw [h0] at hpa; cases hpa
        obtain ⟨S1, bts1, ps1, e1, hp1, h1⟩ := h.move hpos hnd B hB ins pos hab (hM a b hab) ha0 hpb
          (hmv (a, b) (by simp))
        refine ⟨S1, bts1, ps1 ++ [], convertLoop_cons e1 rfl, ?_, h1⟩
        rw [List.append_nil]; exact hp1
      unfold moveOp
      split
      · exact hskip
      · split
        · next pa pb hpa hpb =>
          split
          · exact hdo pa pb hpa hpb _
          · split
            · exact hdo pa pb hpa hpb _
            · exact hskip
        · exact hskip
    obtain ⟨S2, bts2, qs, e2, hq, h2⟩ := ih (fun p hp => hl p (List.mem_cons_of_mem _ hp)) hnl.2
      (Mv := fun x => Mv x ∨ x = a) (by
        rintro p hp (hm | rfl)
        · exact hmv p (List.mem_cons_of_mem _ hp) hm
        · exact hnl.1 (List.mem_map.2 ⟨p, hp, rfl⟩)) h1
    refine ⟨S2, bts2, ps1 ++ qs, ?_, ?_, ?_⟩
    · rw [List.flatMap_cons]; exact convertLoop_append e1 e2
    · intro P hP
      rcases List.mem_append.1 hP with h | h
      · exact hp1 P h
      · exact hq P h
    · have : (fun x => Mv x ∨ x ∈ (((a, b) :: l).map Prod.fst)) =
          (fun x => (Mv x ∨ x = a) ∨ x ∈ l.map Prod.fst) := by
        funext x; simp only [List.map_cons, List.mem_cons]; rw [or_assoc]
      rw [this]; exact h2

/-- Deletes. -/
theorem deletes (hA : A.WF) {oA : List Nat} {Mv : Nat → Prop} (hMv : ∀ a, Mv a → M.containsA a = true) {r : List Nat} :
    ∀ (l l1 : List Nat) {S : Shadow} {bts : Nat → Option Nat} {Dl : Nat → Prop},
      A.post 0 = l1 ++ l ++ r → (∀ a ∈ l, a < A.next) → (∀ a ∈ l, a = 0 → M.containsA a = true) →
      (∀ a, Dl a → a ∈ l1) → ConvOk A M S bts Mv Dl →
    ∃ S' ps Dl', convertLoop B ins ⟨S, bts⟩ (l.flatMap fun a =>
        if M.containsA a then [] else if a ∈ oA then [] else [.delete a]) = .ok (⟨S', bts⟩, ps) ∧
      (∀ P ∈ ps, P.SparesRoot) ∧ ConvOk A M S' bts Mv Dl' := by
  intro l
  induction l with
  | nil => intro l1 S bts Dl _ _ _ _ h; exact ⟨S, [], Dl, rfl, by simp, h⟩
  | cons a l ih =>
    intro l1 S bts Dl hpost hlt hz hdl h
    have hnd := hA.post_nodup 0
    have hnext : A.post 0 = (l1 ++ [a]) ++ l ++ r := by rw [hpost]; simp
    have hrest := fun {S' : Shadow} {Dl' : Nat → Prop} (hd : ∀ x, Dl' x → x ∈ l1 ++ [a])
        (hl : ConvOk A M S' bts Mv Dl') => ih (l1 ++ [a]) hnext
      (fun x hx => hlt x (List.mem_cons_of_mem _ hx)) (fun x hx => hz x (List.mem_cons_of_mem _ hx)) hd hl
    have hskip : ∃ S' ps Dl', convertLoop B ins ⟨S, bts⟩ ([] ++ l.flatMap fun a =>
          if M.containsA a then [] else if a ∈ oA then [] else [.delete a]) = .ok (⟨S', bts⟩, ps) ∧
        (∀ P ∈ ps, P.SparesRoot) ∧ ConvOk A M S' bts Mv Dl' :=
      hrest (fun x hx => List.mem_append.2 (.inl (hdl x hx))) h
    rw [List.flatMap_cons]
    by_cases hc : M.containsA a = true
    · rw [if_pos hc]; exact hskip
    · rw [if_neg hc]
      by_cases ho : a ∈ oA
      · rw [if_pos ho]; exact hskip
      · rw [if_neg ho]
        have ha0 : a ≠ 0 := fun e => hc (hz a (by simp) e)
        have hal : a ∉ l1 := by
          intro hx
          rw [hpost, List.append_assoc, List.nodup_append] at hnd
          exact hnd.2.2 a hx a (by simp) rfl
        obtain ⟨S1, P1, e1, hP1, h1⟩ := h.delete B ins (hlt a (by simp)) ha0 (fun hm => hc (hMv a hm))
          (fun hd => hal (hdl a hd)) (by
            intro p hp hne hd
            obtain ⟨k1, k2, ek⟩ := List.append_of_mem (hdl p hd)
            have := hA.post_desc_first 0 (l1 := k1) (l2 := k2 ++ a :: l ++ r) (by rw [hpost, ek]; simp) hp hne
            exact hal (by rw [ek]; simp [this])) hA
        obtain ⟨S2, qs, Dl2, e2, hq, h2⟩ := hrest (Dl' := fun x => Dl x ∨ x = a) (by
          rintro x (hx | rfl)
          · exact List.mem_append.2 (.inl (hdl x hx))
          · simp) h1
        refine ⟨S2, [P1] ++ qs, Dl2, convertLoop_cons e1 e2, ?_, h2⟩
        intro P hP
        rcases List.mem_append.1 hP with h | h
        · rw [List.mem_singleton.1 h]; exact hP1
        · exact hq P h

end ConvOk

theorem initBToShadow_mem {M : Matching} {b a : Nat} (h : initBToShadow M b = some a) : (a, b) ∈ M.pairs := by
  unfold initBToShadow at h
  have key : ∀ (ps : List (Nat × Nat)) (f : Nat → Option Nat),
      ps.foldl (fun f p => Arena.upd f p.2 (some p.1)) f b = some a → (a, b) ∈ ps ∨ f b = some a := by
    intro ps
    induction ps with
    | nil => intro f h; exact .inr h
    | cons p ps ih =>
      intro f h
      rcases ih _ h with h | h
      · exact .inl (List.mem_cons_of_mem _ h)
      · simp only [Arena.upd_apply] at h
        split at h
        · next e =>
          cases h
          exact .inl (by rw [e]; simp)
        · exact .inr h
  rcases key _ _ h with h | h
  · exact h
  · cases h

/-- The state in which the conversion starts. -/
theorem ConvOk.init {A : Arena TData} {M : Matching} {S : Shadow} (hA : A.WF) (hpos : 0 < A.next)
    (h0 : A.parent 0 = none) (hreach : ∀ n, n < A.next → A.Anc 0 n) (hM : ∀ a b, (a, b) ∈ M.pairs → a < A.next)
    (hS : ShadowInit A S) : ConvOk A M S (initBToShadow M) (fun _ => False) (fun _ => False) := by
  have hslot : ∀ m, S.IsSlot m → m = A.next + 1 := by
    intro m hm
    have hm' : S.arena.parent m = some S.superRoot := hm
    rw [hS.parent, hS.super] at hm'
    apply Classical.byContradiction
    intro hne
    rw [if_neg hne] at hm'
    split at hm'
    · injection hm' with e; omega
    · have := (hA.lt_of_parent _ _ hm').2; omega
  refine ⟨hS.shape, hS.super, by rw [hS.next]; exact Nat.le_refl _, by rw [hS.slots]; exact Nat.le_refl _, ?_, ?_, ?_, ?_, ?_, ?_⟩
  · rw [hS.children, if_neg (by omega), if_pos rfl]; rfl
  · rw [hS.children, if_pos rfl]
  · intro n hn hne _
    rw [hS.parent]
    by_cases h1 : n = 0
    · exact ⟨_, by rw [if_pos h1]⟩
    · rw [if_neg h1]
      by_cases h2 : n = A.next + 1
      · exact ⟨_, by rw [if_pos h2]⟩
      · rw [if_neg h2]
        have := hS.next
        rcases (hreach n (by omega)).cases' with e | ⟨q, hq, _⟩
        · exact absurd e.symm h1
        · exact ⟨q, hq⟩
  · intro x hx hs
    have := hslot x hs; omega
  · intro b s hb
    have := initBToShadow_mem hb
    have hlt := hM _ _ this
    have hnx := hS.next
    refine ⟨by omega, by omega, fun hs => ?_, fun _ => this⟩
    have := hslot s hs; omega
  · intro x hx _ p hp
    rw [hS.parent] at hp
    by_cases h1 : x = 0
    · rw [if_pos h1] at hp; cases hp
      left
      show S.arena.parent _ = _
      rw [hS.parent, if_neg (by omega), if_pos rfl, hS.super]
    · rw [if_neg h1, if_neg (by omega)] at hp
      exact .inr ⟨.step hp .refl, hA.self_parent_ne hp⟩

/-- The conversion of the script of a matching succeeds. If the root of the old tree is matched, no
patch takes the root away. -/
theorem convertOps_ok {hashNode : HKind → Option Str → List H → H} {A B : Arena TData} {nb : Nat}
    {M : Matching} (hA : A.WF) (hB : B.WF) (hpos : 0 < A.next) (h0 : A.parent 0 = none)
    (hreach : ∀ n, n < A.next → A.Anc 0 n) (hM : ∀ a b, (a, b) ∈ M.pairs → a < A.next)
    (hnd : (M.pairs.map Prod.fst).Nodup) (hc : ∀ a b, (a, b) ∈ M.pairs → M.containsA a = true) :
    ∃ ps, convertOps (scriptOf hashNode A B 0 nb M) A 0 B M = .ok ps ∧
      (M.containsA 0 = true → ∀ P ∈ ps, P.SparesRoot) := by
  obtain ⟨S0, e0, hS0⟩ := Shadow.new_init hA hpos h0
  have hl0 := ConvOk.init hA hpos h0 hreach hM hS0
  unfold convertOps
  generalize insertedNodes (scriptOf hashNode A B 0 nb M) = ins
  have hpost : (DiffTree.ofArena hashNode A 0).postOrder = (A.children 0).flatMap A.post ++ [0] := by
    rw [← hA.post_eq]; exact hA.postOrder_eq hpos
  obtain ⟨p1, e1, q1⟩ := ConvOk.updates (B := B) (ins := ins) ⟨S0, initBToShadow M⟩
    (updateOps (DiffTree.ofArena hashNode A 0) (DiffTree.ofArena hashNode B nb) M
      (opaqueDescendants (DiffTree.ofArena hashNode A 0)) (opaqueDescendants (DiffTree.ofArena hashNode B nb)))
    (fun op h => phase_update h)
  obtain ⟨S2, bts2, p2, e2, q2, hl2⟩ := ConvOk.inserts (B := B) (ins := ins) hpos
    (insertOps (DiffTree.ofArena hashNode B nb) M (opaqueDescendants (DiffTree.ofArena hashNode B nb)))
    (fun op h => by obtain ⟨b, pb, _, _, _, _, rfl⟩ := mem_insertOps.1 h; rfl) hl0
  obtain ⟨S3, bts3, p3, e3, q3, hl3⟩ := ConvOk.moves (B := B) (ins := ins) (hashNode := hashNode) hA hB hpos h0
    (nb := nb) (oA := opaqueDescendants (DiffTree.ofArena hashNode A 0))
    (oB := opaqueDescendants (DiffTree.ofArena hashNode B nb)) hnd hM M.pairs (fun _ h => h) hnd
    (fun _ _ h => h) hl2
  have hMv : ∀ a, (False ∨ a ∈ M.pairs.map Prod.fst) → M.containsA a = true := by
    rintro a (h | h)
    · cases h
    · obtain ⟨p, hp, rfl⟩ := List.mem_map.1 h
      exact hc p.1 p.2 hp
  have hz : ∀ a ∈ (A.children 0).flatMap A.post, a < A.next ∧ a ≠ 0 := by
    intro a ha
    have hm : a ∈ A.post 0 := by rw [hA.post_eq]; exact List.mem_append.2 (.inl ha)
    refine ⟨?_, ?_⟩
    · rcases ((hA.mem_post _ _).1 hm).cases' with e | ⟨q, hq, _⟩
      · rw [← e]; exact hpos
      · exact (hA.lt_of_parent _ _ hq).1
    rintro rfl
    have := hA.post_nodup 0
    rw [hA.post_eq, List.nodup_append] at this
    exact this.2.2 0 ha 0 (by simp) rfl
  obtain ⟨S4, p4, Dl4, e4, q4, hl4⟩ := ConvOk.deletes (B := B) (ins := ins) hA
    (oA := opaqueDescendants (DiffTree.ofArena hashNode A 0)) hMv (r := [0])
    ((A.children 0).flatMap A.post) [] (by rw [List.nil_append]; exact hA.post_eq 0)
    (fun a ha => (hz a ha).1) (fun a ha e => absurd e (hz a ha).2) (fun _ h => h.elim) hl3
  -- the last operation, if the root is deleted
  obtain ⟨C5, p5, e5, q5⟩ : ∃ C5 p5, convertLoop B ins ⟨S4, bts3⟩
      (if M.containsA 0 then [] else
        if 0 ∈ opaqueDescendants (DiffTree.ofArena hashNode A 0) then [] else [.delete 0]) = .ok (C5, p5) ∧
      (M.containsA 0 = true → p5 = []) := by
    by_cases hc0 : M.containsA 0 = true
    · rw [if_pos hc0]; exact ⟨_, [], rfl, fun _ => rfl⟩
    · rw [if_neg hc0]
      split
      · exact ⟨_, [], rfl, fun _ => rfl⟩
      · obtain ⟨S5, e5, -⟩ := Shadow.detachWithPlaceholder_repl hl4.shape hl4.parent0 (by rw [hl4.super]; omega)
        refine ⟨⟨S5, bts3⟩, [.remove (S4.computePath 0)] ++ [], convertLoop_cons ?_ rfl, fun h => absurd h hc0⟩
        unfold convertOp
        simp only [e5, bind, Except.bind]
  have hdel : deleteOps (DiffTree.ofArena hashNode A 0) M (opaqueDescendants (DiffTree.ofArena hashNode A 0)) =
      ((A.children 0).flatMap A.post).flatMap (fun a => if M.containsA a then [] else
        if a ∈ opaqueDescendants (DiffTree.ofArena hashNode A 0) then [] else [.delete a]) ++
      (if M.containsA 0 then [] else
        if 0 ∈ opaqueDescendants (DiffTree.ofArena hashNode A 0) then [] else [.delete 0]) := by
    unfold deleteOps
    rw [hpost, List.flatMap_append]
    simp only [List.flatMap_cons, List.flatMap_nil, List.append_nil]
  have hall : convertLoop B ins ⟨S0, initBToShadow M⟩ (scriptOf hashNode A B 0 nb M) =
      .ok (C5, p1 ++ p2 ++ p3 ++ (p4 ++ p5)) := by
    show convertLoop B ins _ (generateEditScript _ _ M) = _
    unfold generateEditScript
    simp only
    rw [hdel]
    exact convertLoop_append (convertLoop_append (convertLoop_append e1 e2) e3) (convertLoop_append e4 e5)
  refine ⟨p1 ++ p2 ++ p3 ++ (p4 ++ p5), by simp only [e0, bind, Except.bind, hall], ?_⟩
  intro hc0 P hP
  rw [q5 hc0] at hP
  simp only [List.append_nil, List.mem_append] at hP
  rcases hP with ((h | h) | h) | h
  · exact q1 P h
  · exact q2 P h
  · exact q3 P h
  · exact q4 P h

/-- The matching used by `diff`: every pair is recorded, old nodes are matched once, the roots are
matched if their kinds agree. -/
theorem diffMatching_facts {hashNode : HKind → Option Str → List H → H} {A B : Arena TData} (hA : A.WF)
    (hB : B.WF) {ra rb : Nat} : ∃ M, diffMatching (DiffTree.ofArena hashNode A ra) (DiffTree.ofArena hashNode B rb) = M ∧
    (M.pairs.map Prod.fst).Nodup ∧ (∀ a b, (a, b) ∈ M.pairs → M.containsA a = true) ∧
    (∀ a b, (a, b) ∈ M.pairs → A.Anc ra a ∧ B.Anc rb b) ∧
    ((A.data ra).kind = (B.data rb).kind → M.containsA ra = true) := by
  refine ⟨_, rfl, ?_⟩
  have hg := (closed_anc (hashNode := hashNode) hA hB ra rb).computeMatching Config.diff
  have hp := (diffMatching_pairs (hashNode := hashNode) hA hB (ra := ra) (rb := rb)).2
  have hcont : ∀ a b, (a, b) ∈ (computeMatching (DiffTree.ofArena hashNode A ra)
      (DiffTree.ofArena hashNode B rb) Config.diff).pairs →
      (computeMatching (DiffTree.ofArena hashNode A ra) (DiffTree.ofArena hashNode B rb) Config.diff).containsA a = true := by
    intro a b hab
    apply Classical.byContradiction
    intro hc
    have := Matching.containsA_false.1 (Bool.eq_false_iff.2 hc)
    rw [(hg.getB a b).2 hab] at this; cases this
  have hnd : ((computeMatching (DiffTree.ofArena hashNode A ra) (DiffTree.ofArena hashNode B rb)
      Config.diff).pairs.map Prod.fst).Nodup := by
    rw [List.Nodup, List.pairwise_map]
    refine hg.nodup.imp_of_mem ?_
    rintro ⟨a, b⟩ ⟨a', b'⟩ h1 h2 hne rfl
    have h1 := (hg.getB _ _).2 h1
    have h2 := (hg.getB _ _).2 h2
    rw [h1] at h2; injection h2 with h2
    exact hne (by rw [h2])
  refine ⟨?_, ?_, hp, ?_⟩
  · unfold diffMatching forceRoots
    split
    · next e =>
      show ((_ ++ [_]).map _).Nodup
      rw [List.map_append, List.nodup_append]
      refine ⟨hnd, by simp, ?_⟩
      intro x hx y hy exy
      obtain ⟨q, hq, rfl⟩ := List.mem_map.1 hx
      simp only [List.map_cons, List.map_nil, List.mem_singleton] at hy
      have := hcont q.1 q.2 hq
      rw [exy, hy] at this
      exact e.2 this
    · exact hnd
  · unfold diffMatching forceRoots
    split
    · intro a b hab
      have hab' : (a, b) ∈ _ ++ [_] := hab
      unfold Matching.containsA Matching.add
      simp only [Arena.upd_apply]
      split
      · rfl
      · next hne =>
        rcases List.mem_append.1 hab' with h | h
        · exact hcont a b h
        · have e := List.mem_singleton.1 h
          cases e; exact absurd rfl hne
    · exact hcont
  · intro hk
    unfold diffMatching forceRoots
    split
    · unfold Matching.containsA Matching.add
      simp only [Arena.upd_apply]
      exact if_pos rfl ▸ rfl
    · next e =>
      simp only [not_and] at e
      exact Classical.byContradiction fun hc => e hk hc

end Hotmeal
