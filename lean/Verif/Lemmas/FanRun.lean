import Verif.Lemmas.Fan
import Verif.Lemmas.BlockRun
import Verif.Props.Provenance
import Verif.Model.Wire

set_option autoImplicit false
set_option linter.unusedSectionVars false

/-!
# The places and the content of generated patches
-/

namespace Hotmeal

/-- Nodes are put at places below `K`. -/
def Patch.Placed (K : Nat) : Patch → Prop
  | .insertElement at_ _ _ _ _ => ∀ pos, at_.getLast? = some pos → pos < K
  | .insertText at_ _ _ => ∀ pos, at_.getLast? = some pos → pos < K
  | .insertComment at_ _ _ => ∀ pos, at_.getLast? = some pos → pos < K
  | .move _ to_ _ => ∀ pos, to_.getLast? = some pos → pos < K
  | _ => True

/-- The operation puts its node at a place below `K`. -/
def EditOp.Placed (K : Nat) : EditOp → Prop
  | .insert _ _ pos _ => pos < K
  | .move _ _ _ pos => pos < K
  | _ => True

/-- Along the conversion of `ops` from state `C`, every operation becomes one patch. (More patches are made for
a Move of a node below itself.) -/
def straight (B : Arena TData) (ins : List Nat) : Conv → List EditOp → Bool
  | _, [] => true
  | C, op :: ops => match convertOp B ins C op with
    | .ok (C', [_]) => straight B ins C' ops
    | .ok _ => false
    | .error _ => true

theorem straight_of_ancestorFree {B : Arena TData} {ins : List Nat} : ∀ (ops : List EditOp) {C : Conv},
    ancestorFree B ins C ops = true → straight B ins C ops = true
  | [], _, _ => rfl
  | op :: ops, C, h => by
    simp only [ancestorFree, Bool.and_eq_true] at h
    unfold straight
    cases hc : convertOp B ins C op with
    | error e => rfl
    | ok r =>
      obtain ⟨C', ps⟩ := r
      rw [hc] at h
      have hone : ∃ P, ps = [P] := by
        cases op with
        | updateProps a b ch => simp only [convertOp, Except.ok.injEq, Prod.mk.injEq] at hc; exact ⟨_, hc.2.symm⟩
        | setText a b t => simp only [convertOp, Except.ok.injEq, Prod.mk.injEq] at hc; exact ⟨_, hc.2.symm⟩
        | insert b pb pos kind =>
          simp only [convertOp] at hc
          obtain ⟨sp, _, hc⟩ := res_bind hc
          obtain ⟨⟨S, slot⟩, _, hc⟩ := res_bind hc
          simp only [Except.ok.injEq, Prod.mk.injEq] at hc
          exact ⟨_, hc.2.symm⟩
        | delete a =>
          simp only [convertOp] at hc
          obtain ⟨S, _, hc⟩ := res_bind hc
          simp only [Except.ok.injEq, Prod.mk.injEq] at hc
          exact ⟨_, hc.2.symm⟩
        | move a b pb pos =>
          simp only [convertOp] at hc
          obtain ⟨sp, hsp, hc⟩ := res_bind hc
          have h1 := h.1
          simp only [hsp, Bool.not_eq_true'] at h1
          rw [h1] at hc
          simp only [Bool.false_eq_true, if_false] at hc
          obtain ⟨⟨S, pre⟩, hp, hc⟩ := res_bind hc
          cases hp
          obtain ⟨⟨S', slot⟩, _, hc⟩ := res_bind hc
          simp only [Except.ok.injEq, Prod.mk.injEq] at hc
          exact ⟨_, hc.2.symm⟩
      obtain ⟨P, rfl⟩ := hone
      exact straight_of_ancestorFree ops h.2

theorem Trace.straight {B : Arena TData} {ins : List Nat} {step : StepFn} {g : Nat → Nat} {J : Nat → Prop}
    {w w2 : World} {ops : List EditOp} {ps : List Patch} (h : Trace B ins step g J w ops ps w2) :
    straight B ins w.C ops = true := by
  induction h with
  | nil => rfl
  | cons hc _ _ _ _ ih => unfold Hotmeal.straight; rw [hc]; exact ih

theorem convertOp_placed {B : Arena TData} {ins : List Nat} {C C' : Conv} {op : EditOp} {P : Patch} {K : Nat}
    (ho : op.Placed K) (h : convertOp B ins C op = .ok (C', [P])) : P.Placed K := by
  cases op with
  | updateProps a b ch =>
    simp only [convertOp, Except.ok.injEq, Prod.mk.injEq, List.cons.injEq, and_true] at h
    rw [← h.2]; trivial
  | setText a b t =>
    simp only [convertOp, Except.ok.injEq, Prod.mk.injEq, List.cons.injEq, and_true] at h
    rw [← h.2]; trivial
  | insert b pb pos kind =>
    simp only [convertOp] at h
    obtain ⟨sp, _, h⟩ := res_bind h
    obtain ⟨⟨S, slot⟩, _, h⟩ := res_bind h
    simp only [Except.ok.injEq, Prod.mk.injEq, List.cons.injEq, and_true] at h
    rw [← h.2]
    have hl : ∀ i, (S.refWithPos sp pos).getLast? = some i → i < K := by
      intro i e
      simp only [Shadow.refWithPos, List.getLast?_concat, Option.some.injEq] at e
      rw [← e]; exact ho
    cases kind <;> exact hl
  | delete a =>
    simp only [convertOp] at h
    obtain ⟨S, _, h⟩ := res_bind h
    simp only [Except.ok.injEq, Prod.mk.injEq, List.cons.injEq, and_true] at h
    rw [← h.2]; trivial
  | move a b pb pos =>
    simp only [convertOp] at h
    obtain ⟨sp, _, h⟩ := res_bind h
    have key : ∃ (S' : Shadow) (f : Path) (s : Option Nat), P = .move f (S'.refWithPos sp pos) s := by
      have last : ∀ {pre : List Patch} {Q : Patch}, pre ++ [Q] = [P] → P = Q := by
        intro pre Q e
        have := congrArg List.getLast? e
        simpa using this.symm
      split at h
      · obtain ⟨⟨S, pre⟩, _, h⟩ := res_bind h
        obtain ⟨⟨S', slot⟩, _, h⟩ := res_bind h
        simp only [Except.ok.injEq, Prod.mk.injEq] at h
        exact ⟨S', _, _, last h.2⟩
      · obtain ⟨⟨S, pre⟩, _, h⟩ := res_bind h
        obtain ⟨⟨S', slot⟩, _, h⟩ := res_bind h
        simp only [Except.ok.injEq, Prod.mk.injEq] at h
        exact ⟨S', _, _, last h.2⟩
    obtain ⟨S', f, s, rfl⟩ := key
    intro i e
    simp only [Shadow.refWithPos, List.getLast?_concat, Option.some.injEq] at e
    rw [← e]; exact ho

theorem convertLoop_placed {B : Arena TData} {ins : List Nat} {K : Nat} : ∀ (ops : List EditOp) {C C' : Conv}
    {ps : List Patch}, (∀ op ∈ ops, op.Placed K) → straight B ins C ops = true →
    convertLoop B ins C ops = .ok (C', ps) → ∀ P ∈ ps, P.Placed K
  | [], _, _, _, _, _, h => by cases h; intro P hP; cases hP
  | op :: ops, C, C', ps, ho, hs, h => by
    obtain ⟨⟨C1, qs⟩, h1, h⟩ := res_bind h
    obtain ⟨⟨C2, rs⟩, h2, h⟩ := res_bind h
    cases h
    unfold straight at hs
    rw [h1] at hs
    split at hs
    · next C3 Q e =>
      simp only [Except.ok.injEq, Prod.mk.injEq] at e
      obtain ⟨rfl, rfl⟩ := e
      intro P hP
      rcases List.mem_append.1 hP with hP | hP
      · rw [List.mem_singleton] at hP
        subst hP
        exact convertOp_placed (ho op (by simp)) h1
      · exact convertLoop_placed ops (fun op hop => ho op (by simp [hop])) hs h2 P hP
    · cases hs
    · next e => cases e

section
variable {H : Type} [DecidableEq H] {hashNode : HKind → Option Str → List H → H} {old new : Document}

/-- Every operation of the edit script becomes one patch: there is no Move of a node below itself. -/
def NoDetours (hashNode : HKind → Option Str → List H → H) (old new : Document) : Prop :=
  ∀ ob nb S, old.body = some ob → new.body = some nb → Shadow.new (buildTree old ob) 0 = .ok S →
    straight (diffable new) (insertedNodes (script hashNode old new ob nb))
      ⟨S, initBToShadow (diffMatching (oldTree hashNode old ob) (newTree hashNode new nb))⟩
      (script hashNode old new ob nb) = true

theorem insertAllLoop_placed {D : Arena NodeData} {K : Nat} : ∀ (cs : List Nat) (pos : Nat) {ps : List Patch},
    pos + cs.length ≤ K → insertAllLoop D pos cs = .ok ps → ∀ P ∈ ps, P.Placed K
  | [], _, _, _, h => by cases h; intro P hP; cases hP
  | c :: cs, pos, ps, hK, h => by
    unfold insertAllLoop at h
    obtain ⟨Q, h1, h⟩ := res_bind h
    obtain ⟨qs, h2, h⟩ := res_bind h
    cases h
    rw [List.length_cons] at hK
    intro P hP
    rcases List.mem_cons.1 hP with rfl | hP
    · have hl : ∀ i, ([0, pos] : Path).getLast? = some i → i < K := by
        intro i e
        simp only [List.getLast?_cons_cons, List.getLast?_singleton, Option.some.injEq] at e
        omega
      unfold createInsertPatch at h1
      split at h1
      · cases h1; exact hl
      · cases h1; exact hl
      · cases h1; exact hl
      · cases h1
    · exact insertAllLoop_placed cs (pos + 1) (by omega) h2 P hP

theorem script_placed {K : Nat} (hw : (diffable new).WF) {ob nb : Nat} (hA : (buildTree old ob).WF)
    (hK : new.arena.Fan K) : ∀ op ∈ script hashNode old new ob nb, op.Placed K := by
  have hat : ∀ b pb pos, (diffable new).parent b = some pb → AtIndex (diffable new) b pos → pos < K := by
    intro b pb pos hp hat
    unfold AtIndex at hat
    rw [hp] at hat
    have := (List.getElem?_eq_some_iff.1 hat).1
    exact Nat.lt_of_lt_of_le this (hK pb)
  intro op hop
  cases op with
  | insert b pb pos kind =>
    have := (C10_inserts_are_the_unmatched hw _ _ _ _ _).1 hop
    exact hat b pb pos this.2.2.2.1 this.2.2.2.2.1
  | move a b pb pos =>
    have := (C12_moves_exactly_when_needed hA hw _ _ _ _ _).1 hop
    exact hat b pb pos this.2.2.2.1 this.2.2.2.2.1
  | _ => trivial

/-- The patches of `diff` put nodes at places that exist in the new page. -/
theorem diff_placed (hold : old.Sound) (hnew : new.Sound) (hs : NoDetours hashNode old new) {K : Nat}
    (hK : new.arena.Fan K) {ps : List Patch} (hd : diff hashNode old new = .ok ps) : ∀ P ∈ ps, P.Placed K := by
  unfold diff at hd
  cases ho : old.body with
  | none =>
    rw [ho] at hd
    cases hn : new.body with
    | none => rw [hn] at hd; cases hd; intro P hP; cases hP
    | some nb =>
      rw [hn] at hd
      exact insertAllLoop_placed _ 0 (by rw [Nat.zero_add]; exact hK nb) hd
  | some ob =>
    rw [ho] at hd
    cases hn : new.body with
    | none =>
      rw [hn] at hd
      cases hd
      intro P hP
      obtain ⟨i, _, rfl⟩ := List.mem_map.1 hP
      trivial
    | some nb =>
      rw [hn] at hd
      simp only at hd
      split at hd
      · cases hd
      · obtain ⟨qs, h1, hd⟩ := res_bind hd
        obtain ⟨rs, h2, hd⟩ := res_bind hd
        cases hd
        obtain ⟨g, hb⟩ := buildTree_spec old hold.arena.leafy ob
        intro P hP
        rcases List.mem_append.1 hP with hP | hP
        · unfold convertOps at h1
          obtain ⟨S, hS, h1⟩ := res_bind h1
          obtain ⟨v, h3, h1⟩ := res_bind h1
          cases h1
          exact convertLoop_placed _ (script_placed (hashNode := hashNode) (nb := nb)
            (Built.diffable_wf hnew.arena.wf) hb.wf hK) (hs ob nb S ho hn hS) h3 P hP
        · unfold opaquePatches at h2
          split at h2
          · cases h2; cases hP
          · obtain ⟨S, _, h2⟩ := res_bind h2
            cases h2
            obtain ⟨c, hc, rfl⟩ := List.mem_map.1 hP
            trivial

end

/-! ### Content -/

mutual
/-- No element of the content has more than `K` children. -/
def InsertContent.Slim (K : Nat) : InsertContent → Prop
  | .element _ _ cs => cs.length ≤ K ∧ InsertContent.SlimL K cs
  | .text _ => True
  | .comment _ => True
def InsertContent.SlimL (K : Nat) : List InsertContent → Prop
  | [] => True
  | c :: cs => c.Slim K ∧ InsertContent.SlimL K cs
end

/-- The browser accepts the names of the elements of the document and of their attributes (as they are sent to
it). -/
def WebDom.Accepts (dom : WebDom) (D : Document) : Prop :=
  ∀ n tag attrs, (D.arena.data n).kind = .element tag attrs → ∃ k, dom.createWithAttrs tag attrs.wire = .ok k

theorem CopiesOf.length_le {D : Arena NodeData} : ∀ {cs : List InsertContent} {ns : List Nat},
    CopiesOf D cs ns → cs.length ≤ ns.length
  | _, _, .nil => Nat.le_refl _
  | _, _, .skip h => Nat.le_succ_of_le h.length_le
  | _, _, .keep _ h => Nat.succ_le_succ h.length_le

mutual
theorem CopyOf.slim {D : Arena NodeData} {K : Nat} (hK : D.Fan K) : ∀ {c : InsertContent} {n : Nat},
    CopyOf D c n → c.Slim K
  | _, _, .text _ => trivial
  | _, _, .comment _ => trivial
  | _, n, .element _ h => ⟨Nat.le_trans h.length_le (hK n), h.slim hK⟩
theorem CopiesOf.slim {D : Arena NodeData} {K : Nat} (hK : D.Fan K) : ∀ {cs : List InsertContent} {ns : List Nat},
    CopiesOf D cs ns → InsertContent.SlimL K cs
  | _, _, .nil => trivial
  | _, _, .skip h => h.slim hK
  | _, _, .keep h hs => ⟨h.slim hK, hs.slim hK⟩
end

theorem InsertContent.wireL_length : ∀ cs : List InsertContent, (InsertContent.wireL cs).length = cs.length
  | [] => rfl
  | _ :: cs => congrArg (· + 1) (wireL_length cs)

mutual
theorem CopyOf.fits {D : Document} {K : Nat} {dom : WebDom} (hd : dom.Accepts D) (hK : D.arena.Fan K) :
    ∀ {c : InsertContent} {n : Nat}, CopyOf D.arena c n → dom.Fits K c.wire
  | _, _, .text _ => by unfold InsertContent.wire WebDom.Fits; trivial
  | _, _, .comment _ => by unfold InsertContent.wire WebDom.Fits; trivial
  | _, n, .element e h => by
    unfold InsertContent.wire WebDom.Fits
    refine ⟨?_, h.fits hd hK, fun er he => ?_⟩
    · rw [InsertContent.wireL_length]; exact Nat.le_trans h.length_le (hK n)
    · obtain ⟨k, hk⟩ := hd n _ _ e
      rw [hk] at he; cases he
theorem CopiesOf.fits {D : Document} {K : Nat} {dom : WebDom} (hd : dom.Accepts D) (hK : D.arena.Fan K) :
    ∀ {cs : List InsertContent} {ns : List Nat}, CopiesOf D.arena cs ns → dom.FitsL K (InsertContent.wireL cs)
  | _, _, .nil => by unfold InsertContent.wireL WebDom.FitsL; trivial
  | _, _, .skip h => h.fits hd hK
  | _, _, .keep h hs => by unfold InsertContent.wireL WebDom.FitsL; exact ⟨h.fits hd hK, hs.fits hd hK⟩
end

theorem patchFits {D : Document} {b K : Nat} {dom : WebDom} (hd : dom.Accepts D) (hK : D.arena.Fan K)
    {P : Patch} (hf : P.From D.arena b) (hp : P.Placed K) : dom.PatchFits K P.wire := by
  cases P with
  | insertElement at_ tag attrs cs slot =>
    obtain ⟨n, _, hc⟩ := hf
    have := hc.fits hd hK
    unfold InsertContent.wire at this
    exact ⟨hp, this⟩
  | _ => exact hp

/-! ### The library -/

namespace Fan

variable {K : Nat}

mutual
theorem createNative : ∀ (c : InsertContent) {A : Arena NodeData},
    A.Fan K → c.Slim K → ∀ {A' : Arena NodeData} {n : Nat}, Hotmeal.createInsertContent A c = .ok (A', n) →
    A'.Fan K ∧ Less A A'
  | .element tag attrs cs, A, h, hf, A', n, e => by
    unfold Hotmeal.createInsertContent at e
    obtain ⟨A2, h3, e⟩ := res_bind e
    cases e
    obtain ⟨h4, h5, h6⟩ := appendNative cs (newNode h ⟨.element tag attrs, .html⟩) hf.2 (by simp [Arena.newNode])
      (by simp [Arena.newNode, Arena.upd_apply]; exact hf.1) h3
    have : A.next + 1 ≤ A'.next := h5
    refine ⟨h4, by omega, fun i hi => ?_⟩
    exact Nat.le_trans (h6 i (by simp [Arena.newNode]; omega) (by simp [Arena.newNode]; omega))
      ((newNode_less A _).2 i hi)
  | .text t, A, h, _, A', n, e => by
    unfold Hotmeal.createInsertContent at e
    cases e
    exact ⟨newNode h _, newNode_less _ _⟩
  | .comment t, A, h, _, A', n, e => by
    unfold Hotmeal.createInsertContent at e
    cases e
    exact ⟨newNode h _, newNode_less _ _⟩
theorem appendNative : ∀ (cs : List InsertContent) {A : Arena NodeData},
    A.Fan K → InsertContent.SlimL K cs → ∀ {p : Nat}, p < A.next → (A.children p).length + cs.length ≤ K →
    ∀ {A' : Arena NodeData}, appendInsertContents A p cs = .ok A' →
    A'.Fan K ∧ A.next ≤ A'.next ∧ ∀ i, i < A.next → i ≠ p → (A'.children i).length ≤ (A.children i).length
  | [], A, h, _, p, _, _, A', e => by
    unfold appendInsertContents at e
    cases e; exact ⟨h, Nat.le_refl _, fun _ _ _ => Nat.le_refl _⟩
  | c :: cs, A, h, hf, p, hp, hK, A', e => by
    unfold appendInsertContents at e
    obtain ⟨⟨A2, m⟩, h1, e⟩ := res_bind e
    obtain ⟨A3, h2, e⟩ := res_bind e
    obtain ⟨h3, h4, h5⟩ := createNative c h hf.1 h1
    have h6 := append_len h2
    have hnext := (h6 0).1
    rw [List.length_cons] at hK
    have hlm : (A3.children p).length + cs.length ≤ K := by
      have h7 := (h6 p).2
      have h8 := h5 p hp
      rw [if_pos rfl] at h7
      omega
    obtain ⟨g1, g2, g3⟩ := appendNative cs (A := A3) (fun i => by
      by_cases hi : i = p
      · subst hi; omega
      · have := (h6 i).2
        have h9 := h3 i
        rw [if_neg hi] at this
        omega) hf.2 (p := p) (by omega) hlm e
    refine ⟨g1, by omega, fun i hi hne => ?_⟩
    have := g3 i (by omega) hne
    have h7 := (h6 i).2
    have h8 := h5 i hi
    rw [if_neg hne] at h7
    omega
end

theorem put {D D' : Arena NodeData} {x p pos occ : Nat} (h : D.Fan K) (hd : DPut D D' x p pos occ) :
    D'.Fan K := by
  intro i
  rw [hd.children]
  split
  · rw [List.length_set]; exact h p
  · exact h i

theorem app {D D' : Arena NodeData} {x p pos : Nat} (h : D.Fan K) (hd : DApp D D' x p pos)
    (hn : (D.children p).length ≤ pos) (hpos : pos < K) : D'.Fan K := by
  intro i
  by_cases hi : i = p
  · subst hi
    obtain ⟨rest, h1, h2⟩ := hd.children
    rw [h2]
    rw [List.drop_of_length_le hn, List.suffix_nil] at h1
    subst h1
    have := h i
    simp only [List.length_append, List.length_take, List.length_range', List.length_cons, List.length_nil]
    omega
  · rw [hd.children_ne i hi]; exact h i

theorem replaced {D D' : Arena NodeData} {n p : Nat} {d : NodeData} (h : D.Fan K) (hd : D.Replaced D' n p d) :
    D'.Fan K := by
  intro i
  rw [hd.children]
  split
  · unfold Arena.swapIn; rw [List.length_map]; exact h p
  · exact h i

theorem atPos {J : Nat → Prop} (hJ : ∀ n, ¬ J n) {D : Arena NodeData} {p pos : Nat}
    (h : AtPos J D p pos none) : (D.children p).length ≤ pos := by
  rcases h with ⟨_, _, e, _⟩ | ⟨_, h⟩
  · cases e
  · apply Classical.byContradiction
    intro hlt
    refine hJ ((D.children p)[pos]'(by omega)) (h _ ?_)
    refine List.mem_of_getElem? (i := 0) ?_
    rw [List.getElem?_drop, Nat.add_zero, List.getElem?_eq_getElem (by omega)]

/-- Slim content of an insert patch. -/
def SlimPatch (K : Nat) : Patch → Prop
  | .insertElement _ _ _ cs _ => cs.length ≤ K ∧ InsertContent.SlimL K cs
  | _ => True

theorem slimPatch {D : Arena NodeData} {b : Nat} (hK : D.Fan K) {P : Patch} (hf : P.From D b) :
    SlimPatch K P := by
  cases P with
  | insertElement at_ tag attrs cs slot => obtain ⟨n, _, hc⟩ := hf; exact hc.slim hK
  | _ => trivial

/-- One patch of the run in the library. -/
theorem regular {J : Nat → Prop} (hJ : ∀ n, ¬ J n) {parse : Str → Document} {D D' : Arena NodeData}
    {slots slots' : Slots} {root : Nat} {P : Patch} (hr : Regular J D slots P) (hw : D.WF)
    (h0 : slots 0 = some root) (hK : D.Fan K) (hplc : P.Placed K) (hs : SlimPatch K P)
    (e : Hotmeal.applyPatch parse D slots P = .ok (D', slots')) :
    D'.Fan K ∧ D'.WF ∧ slots' 0 = some root := by
  have hL := lawful_native parse root
  have hupd : ∀ {k : Nat} {v : Option Nat} {t : Slots}, k ≠ 0 → t 0 = some root →
      Arena.upd t k v 0 = some root := by
    intro k v t hk ht; rw [Arena.upd_apply, if_neg (fun e => hk e.symm)]; exact ht
  cases hr with
  | setText q n s ns t hq hd =>
    rcases hd with hd | hd
    · rw [hL.setText_text _ _ _ _ _ _ _ h0 hq hd] at e
      cases e; exact ⟨hK, hw.setData _ _, h0⟩
    · rw [hL.setText_comment _ _ _ _ _ _ _ h0 hq hd] at e
      cases e; exact ⟨hK, hw.setData _ _, h0⟩
  | updateProps q n tag attrs ns changes hq hd hk hn ht =>
    rw [hL.updateProps _ _ _ _ _ _ _ _ h0 hq hd hk hn ht] at e
    cases e; exact ⟨hK, hw.setData _ _, h0⟩
  | remove q n p hq hl hp =>
    obtain ⟨D2, e2, h2⟩ := hL.remove _ _ _ _ _ h0 hw hq hl hp
    rw [e2] at e; cases e
    exact ⟨replaced hK h2, h2.wf, h0⟩
  | removeFree k n hk hsl hn hp =>
    obtain ⟨D2, s2, e2, h2, h3⟩ := hL.removeFree _ _ _ _ h0 hw hk hsl hn hp
    rw [e2] at e; cases e
    refine ⟨?_, ?_, ?_⟩
    · rcases h2 with rfl | rfl
      · exact hK
      · exact newNode hK _
    · rcases h2 with rfl | rfl
      · exact hw
      · exact hw.newNode _
    · rcases h3 with rfl | rfl
      · exact h0
      · exact hupd hk h0
  | insert q nk cs p pos slot hc hcs hq he hpl ha =>
    have hD1 : ∃ D1, Created D D1 ⟨nk, .html⟩ ∧ D1.Fan K ∧ insertAt D1 slots (q ++ [pos]) D.next slot =
        .ok (D', slots') := by
      cases nk with
      | document => exact hc.elim
      | element tag attrs =>
        obtain ⟨D1, e1, h1, _⟩ := hw.createdContent tag attrs cs
        refine ⟨D1, h1, ?_, ?_⟩
        · exact (appendNative cs (newNode hK _) hs.2 (by simp [Arena.newNode])
            (by simp [Arena.newNode, Arena.upd_apply]; exact hs.1) e1).1
        · simp only [insertPatch, Hotmeal.applyPatch, bind, Except.bind, Arena.newNode_snd, e1] at e
          exact e
      | text s =>
        refine ⟨_, hw.created _, newNode hK _, ?_⟩
        simp only [insertPatch, Hotmeal.applyPatch, Arena.newNode_snd] at e
        exact e
      | comment s =>
        refine ⟨_, hw.created _, newNode hK _, ?_⟩
        simp only [insertPatch, Hotmeal.applyPatch, Arena.newNode_snd] at e
        exact e
    obtain ⟨D1, h1, hK1, e⟩ := hD1
    have hpos : pos < K := by
      have hl : (q ++ [pos]).getLast? = some pos := by simp
      cases nk <;> exact hplc pos hl
    have hch := h1.children p hpl
    rcases ha with ⟨k, occ, rfl, hk, hocc⟩ | ⟨rfl, ha⟩
    · obtain ⟨D2, e2, h2⟩ := insertAt_put (k := k) h1.wf (h1.navigate hw hq) (by rw [hch]; exact hocc)
        h1.next_lt h1.self (h1.not_anc hw hpl)
      rw [e2] at e; cases e
      exact ⟨put hK1 h2, h2.wf, hupd hk h0⟩
    · obtain ⟨D2, e2, h2⟩ := insertAt_app (pos := pos) h1.wf (h1.navigate hw hq) (Nat.lt_trans hpl h1.next_lt)
        h1.next_lt h1.self (h1.not_anc hw hpl)
      rw [e2] at e; cases e
      exact ⟨app hK1 h2 (by rw [hch]; exact atPos hJ (.inr ⟨rfl, ha⟩)) hpos, h2.wf, h0⟩
  | move q n q' p pos slot hq hn hc hm =>
    obtain ⟨D1, s1, ht, h1, h2⟩ := hL.move _ _ _ _ h0 hw hq hn hc
    obtain ⟨m1, m2, m3, m4, m5⟩ := hm D1 s1 ht
    have hpos : pos < K := hplc pos (by simp)
    have hD1 : D1.Fan K ∧ s1 0 = some root := by
      rcases ht with ⟨_, rfl, hr⟩ | ⟨k, rfl, rfl, hs1⟩
      · rcases hc with ⟨_, p0, hp0⟩ | ⟨hl, _⟩
        · exact ⟨replaced hK (hr p0 hp0), h0⟩
        · omega
      · have hk : k ≠ 0 := by
          rcases hc with ⟨hl, _⟩ | ⟨_, hne, _⟩
          · simp at hl
          · exact fun e => hne (by rw [e])
        refine ⟨hK, ?_⟩
        rcases hs1 with rfl | rfl
        · exact h0
        · exact hupd hk h0
    rcases m5 with ⟨k, occ, rfl, hk, hocc⟩ | ⟨rfl, ha⟩
    · obtain ⟨D2, e2, h3⟩ := h1 q' p pos occ k hk m1 m2 m3 m4 hocc
      rw [e2] at e; cases e
      exact ⟨put hD1.1 h3, h3.wf, hupd hk hD1.2⟩
    · obtain ⟨D2, e2, h3⟩ := h2 q' p pos m1 m2 m3 m4
      rw [e2] at e; cases e
      exact ⟨app hD1.1 h3 (atPos hJ (.inr ⟨rfl, ha⟩)) hpos, h3.wf, hD1.2⟩

theorem trace {J : Nat → Prop} (hJ : ∀ n, ¬ J n) {parse : Str → Document} {B : Arena TData} {ins : List Nat}
    {g : Nat → Nat} {root : Nat} {w w2 : World} {ops : List EditOp} {ps : List Patch}
    (ht : Trace B ins (Hotmeal.applyPatch parse) g J w ops ps w2) (hw : w.D.WF) (h0 : w.slots 0 = some root)
    (hK : w.D.Fan K) (hp : ∀ P ∈ ps, P.Placed K ∧ SlimPatch K P) : w2.D.Fan K := by
  induction ht with
  | nil => exact hK
  | cons _ hs _ hr _ ih =>
    have hP := hp _ List.mem_cons_self
    obtain ⟨h1, h2, h3⟩ := regular hJ hr hw h0 hK hP.1 hP.2 hs
    exact ih h2 h3 h1 fun Q hQ => hp Q (List.mem_cons_of_mem _ hQ)

end Fan
end Hotmeal
