import Verif.Lemmas.BlockRun
import Verif.Props.Script

set_option autoImplicit false
set_option linter.unusedSectionVars false

/-!
# The content of opaque elements during a run of patches
-/

namespace Hotmeal

/-- The children of the nodes in `C` and the data of the nodes in `I` are what they were in `D0`. -/
structure Unharmed (D0 : Arena NodeData) (C I : Nat → Prop) (root : Nat) (D : Arena NodeData) (slots : Slots) : Prop where
  wf : D.WF
  next : D0.next ≤ D.next
  slot : slots 0 = some root
  children : ∀ n, C n → D.children n = D0.children n
  data : ∀ n, I n → D.data n = D0.data n

/-- The nodes in `I` are the children of the nodes in `C`, and are nodes in `C`. -/
structure Enclosed (D0 : Arena NodeData) (C I : Nat → Prop) : Prop where
  kids : ∀ p c, C p → c ∈ D0.children p → I c
  sub : ∀ n, I n → C n
  lt : ∀ n, C n → n < D0.next

namespace Unharmed

variable {D0 D D' : Arena NodeData} {C I : Nat → Prop} {root : Nat} {slots slots' : Slots}
  (h : Unharmed D0 C I root D slots)
include h

theorem setData {n : Nat} (d : NodeData) (hn : ¬ I n) : Unharmed D0 C I root (D.setData n d) slots := by
  refine ⟨h.wf.setData n d, h.next, h.slot, h.children, fun m hm => ?_⟩
  rw [← h.data m hm]
  show Arena.upd D.data n d m = _
  rw [Arena.upd_apply, if_neg]
  rintro rfl
  exact hn hm

variable (hE : Enclosed D0 C I)
include hE

theorem newNode (d : NodeData) (hs : slots' 0 = slots 0) : Unharmed D0 C I root (D.newNode d).1 slots' := by
  refine ⟨h.wf.newNode d, ?_, hs.trans h.slot, fun n hn => ?_, fun n hn => ?_⟩
  · rw [Arena.newNode_next]; have := h.next; omega
  · rw [h.wf.newNode_children]; exact h.children n hn
  · have := hE.lt n (hE.sub n hn)
    have := h.next
    rw [Arena.newNode_data, if_neg (by omega)]; exact h.data n hn

theorem created {d : NodeData} (hc : Created D D' d) : Unharmed D0 C I root D' slots := by
  refine ⟨hc.wf, Nat.le_trans h.next (Nat.le_of_lt hc.next_lt), h.slot, fun n hn => ?_, fun n hn => ?_⟩
  · rw [hc.children _ (Nat.lt_of_lt_of_le (hE.lt n hn) h.next)]; exact h.children n hn
  · rw [hc.data _ (Nat.lt_of_lt_of_le (hE.lt n (hE.sub n hn)) h.next)]; exact h.data n hn

theorem replaced {n p : Nat} {d : NodeData} (hp : D.parent n = some p) (hr : D.Replaced D' n p d)
    (hn : ¬ I n) (hs : slots' 0 = slots 0) : Unharmed D0 C I root D' slots' := by
  have hps : ¬ C p := by
    intro e
    have := (h.wf.mem_iff _ _).2 hp
    rw [h.children p e] at this
    exact hn (hE.kids p n e this)
  refine ⟨hr.wf, ?_, hs.trans h.slot, fun m hm => ?_, fun m hm => ?_⟩
  · rw [hr.next]; have := h.next; omega
  · rw [hr.children, if_neg (by rintro rfl; exact hps hm)]; exact h.children m hm
  · have := hE.lt m (hE.sub m hm)
    have := h.next
    rw [hr.data, if_neg (by omega)]; exact h.data m hm

theorem put {n p pos occ : Nat} (hd : DPut D D' n p pos occ) (hp : ¬ C p) (hs : slots' 0 = slots 0) :
    Unharmed D0 C I root D' slots' := by
  refine ⟨hd.wf, ?_, hs.trans h.slot, fun m hm => ?_, fun m hm => ?_⟩
  · rw [hd.next]; exact h.next
  · rw [hd.children, if_neg (by rintro rfl; exact hp hm)]; exact h.children m hm
  · rw [hd.data]; exact h.data m hm

theorem app {n p pos : Nat} (hd : DApp D D' n p pos) (hp : ¬ C p) (hs : slots' 0 = slots 0) :
    Unharmed D0 C I root D' slots' := by
  refine ⟨hd.wf, ?_, hs.trans h.slot, fun m hm => ?_, fun m hm => ?_⟩
  · rw [hd.next]; have := h.next; omega
  · rw [hd.children_ne _ (by rintro rfl; exact hp hm)]; exact h.children m hm
  · have := hE.lt m (hE.sub m hm)
    have := h.next
    rw [hd.data, if_neg (by omega)]; exact h.data m hm

end Unharmed

/-- The operation is not about a node of the old tree in `S` and does not put anything below a node of the new
tree in `T`. -/
def EditOp.Shuns (S T : Nat → Prop) : EditOp → Prop
  | .updateProps a _ _ => ¬ S a
  | .setText a _ _ => ¬ S a
  | .delete a => ¬ S a
  | .insert _ pb _ _ => ¬ T pb
  | .move a _ pb _ => ¬ S a ∧ ¬ T pb

theorem DPut.has {D D' : Arena NodeData} {n p pos occ : Nat} (h : DPut D D' n p pos occ) :
    D'.parent n = some p := by
  refine (h.wf.mem_iff _ _).1 (List.mem_of_getElem? (i := pos) ?_)
  rw [h.children, if_pos rfl, List.getElem?_set_self]
  exact (List.getElem?_eq_some_iff.1 h.at_).1

theorem DApp.has {D D' : Arena NodeData} {n p pos : Nat} (h : DApp D D' n p pos) :
    D'.parent n = some p := by
  obtain ⟨rest, _, hc⟩ := h.children
  refine (h.wf.mem_iff _ _).1 ?_
  rw [hc]
  simp

section
variable {D0 : Arena NodeData} {root : Nat} {C I T : Nat → Prop} {g : Nat → Nat} {step : StepFn}
  {B : Arena TData} {ins : List Nat} {J : Nat → Prop}

/-- One operation of the run. -/
theorem Unharmed.edit (hE : Enclosed D0 C I) (hL : Lawful root step) {w w1 : World} {op : EditOp} {P : Patch}
    (hsort : P.sort = op.sort)
    (hs : step w.D w.slots P = .ok (w1.D, w1.slots)) (hg : Addresses g w op P w1)
    (hre : Regular J w.D w.slots P) (hop : op.Shuns (fun a => I (g a)) T)
    (h : Unharmed D0 C I root w.D w.slots) (hc : ∀ b n, w.c b = some n → C n → T b) :
    Unharmed D0 C I root w1.D w1.slots ∧ ∀ b n, w1.c b = some n → C n → T b := by
  cases op with
  | updateProps a b ch =>
    obtain ⟨hwc, q, rfl, hq⟩ := hg
    refine ⟨?_, by rw [hwc]; exact hc⟩
    obtain ⟨n, tag, attrs, ns, hq', hd, hk, hnn, ht⟩ := hre.props_inv
    rw [hL.updateProps _ _ _ _ _ _ _ _ h.slot hq' hd hk hnn ht] at hs
    simp only [Except.ok.injEq, Prod.mk.injEq] at hs
    rw [← hs.1, ← hs.2]
    rw [hq] at hq'; cases hq'
    exact h.setData _ hop
  | setText a b t =>
    obtain ⟨hwc, q, rfl, hq⟩ := hg
    refine ⟨?_, by rw [hwc]; exact hc⟩
    obtain ⟨n, s, ns, hq', hd⟩ := hre.text_inv
    rcases hd with hd | hd
    · rw [hL.setText_text _ _ _ _ _ _ _ h.slot hq' hd] at hs
      simp only [Except.ok.injEq, Prod.mk.injEq] at hs
      rw [← hs.1, ← hs.2]
      rw [hq] at hq'; cases hq'
      exact h.setData _ hop
    · rw [hL.setText_comment _ _ _ _ _ _ _ h.slot hq' hd] at hs
      simp only [Except.ok.injEq, Prod.mk.injEq] at hs
      rw [← hs.1, ← hs.2]
      rw [hq] at hq'; cases hq'
      exact h.setData _ hop
  | delete a =>
    obtain ⟨hwc, q, rfl, hq⟩ := hg
    refine ⟨?_, by rw [hwc]; exact hc⟩
    rcases hre.remove_inv with ⟨n, p, hq', hl, hp⟩ | ⟨s, n, rfl, hk, hsl, hnl, hp⟩
    · rw [hq] at hq'; cases hq'
      obtain ⟨D', e, hrep⟩ := hL.remove _ _ _ _ _ h.slot h.wf hq hl hp
      rw [e] at hs
      simp only [Except.ok.injEq, Prod.mk.injEq] at hs
      rw [← hs.1, ← hs.2]
      exact h.replaced hE hp hrep hop rfl
    · obtain ⟨D', slots', e, h1, h2⟩ := hL.removeFree _ _ _ _ h.slot h.wf hk hsl hnl hp
      rw [e] at hs
      simp only [Except.ok.injEq, Prod.mk.injEq] at hs
      rw [← hs.1, ← hs.2]
      have hz : slots' 0 = w.slots 0 := by
        rcases h2 with h2 | h2
        · rw [h2]
        · rw [h2, Arena.upd_apply, if_neg (fun e => hk e.symm)]
      rcases h1 with h1 | h1
      · rw [h1]; exact ⟨h.wf, h.next, hz.trans h.slot, h.children, h.data⟩
      · rw [h1]; exact h.newNode hE _ hz
  | insert b pb pos kind =>
    obtain ⟨hwc, p, hp, hpar, _⟩ := hg
    obtain ⟨q, nk, cs, p', pos', slot, rfl, h1, h2, hq, he, hlt, ha⟩ := hre.insert_inv hsort
    obtain ⟨D1, hcr, _, _, hput, happ⟩ := hL.insert _ _ q nk cs p' h.slot h.wf h1 h2 hq he hlt
    have hD1 := h.created hE hcr
    have key : w1.D.parent w.D.next = some p' → ¬ C p' := by
      intro e hcp
      rw [hpar] at e
      cases e
      exact hop (hc _ _ hp hcp)
    constructor
    · rcases ha with ⟨s, occ, rfl, hs0, hocc⟩ | ⟨rfl, hdrop⟩
      · obtain ⟨D', e, hdp⟩ := hput pos' occ s hs0 hocc
        rw [e] at hs
        simp only [Except.ok.injEq, Prod.mk.injEq] at hs
        have k1 := key (by rw [← hs.1]; exact hdp.has)
        rw [← hs.1, ← hs.2]
        exact hD1.put hE hdp k1 (by rw [Arena.upd_apply, if_neg (fun e => hs0 e.symm)])
      · obtain ⟨D', e, hda⟩ := happ pos'
        rw [e] at hs
        simp only [Except.ok.injEq, Prod.mk.injEq] at hs
        have k1 := key (by rw [← hs.1]; exact hda.has)
        rw [← hs.1, ← hs.2]
        exact hD1.app hE hda k1 rfl
    · intro b' n hn hcn
      rw [hwc, Arena.upd_apply] at hn
      split at hn
      · cases hn
        have := hE.lt _ hcn
        have := h.next
        omega
      · exact hc _ _ hn hcn
  | move a b pb pos =>
    obtain ⟨hwc, q, t, slot, rfl, hq, p, hp, hpar, _⟩ := hg
    obtain ⟨hn, hb1⟩ := hop
    refine ⟨?_, by rw [hwc]; exact hc⟩
    obtain ⟨n, q', p', pos', rfl, hq', hnl, hcase, hm⟩ := hre.move_inv
    rw [hq] at hq'; cases hq'
    obtain ⟨D1, slots1, htk, hput, happ⟩ := hL.move _ _ _ _ h.slot h.wf hq hnl hcase
    obtain ⟨m1, m2, m3, m4, m5⟩ := hm D1 slots1 htk
    have hD1 : Unharmed D0 C I root D1 slots1 := by
      rcases htk with ⟨hl, e, hrep⟩ | ⟨s, e1, e2, e3⟩
      · rcases hcase with ⟨_, p0, hp0⟩ | ⟨hl', _⟩
        · exact h.replaced hE hp0 (hrep p0 hp0) hn (by rw [e])
        · omega
      · have hz : slots1 0 = w.slots 0 := by
          rcases e3 with e3 | e3
          · rw [e3]
          · rw [e3, Arena.upd_apply, if_neg]
            intro e
            rcases hcase with ⟨hl, _⟩ | ⟨_, hne, _⟩
            · rw [e1] at hl; simp at hl
            · exact hne (by rw [e1, e])
        rw [e2]
        exact ⟨h.wf, h.next, hz.trans h.slot, h.children, h.data⟩
    have key : w1.D.parent (g a) = some p' → ¬ C p' := by
      intro e hcp
      rw [hpar] at e
      cases e
      exact hb1 (hc _ _ hp hcp)
    rcases m5 with ⟨s, occ, rfl, hs0, hocc⟩ | ⟨rfl, hdrop⟩
    · obtain ⟨D', e, hdp⟩ := hput q' p' pos' occ s hs0 m1 m2 m3 m4 hocc
      rw [e] at hs
      simp only [Except.ok.injEq, Prod.mk.injEq] at hs
      have k1 := key (by rw [← hs.1]; exact hdp.has)
      rw [← hs.1, ← hs.2]
      exact hD1.put hE hdp k1 (by rw [Arena.upd_apply, if_neg (fun e => hs0 e.symm)])
    · obtain ⟨D', e, hda⟩ := happ q' p' pos' m1 m2 m3 m4
      rw [e] at hs
      simp only [Except.ok.injEq, Prod.mk.injEq] at hs
      have k1 := key (by rw [← hs.1]; exact hda.has)
      rw [← hs.1, ← hs.2]
      exact hD1.app hE hda k1 rfl

/-- A whole run. -/
theorem Trace.unharmed (hE : Enclosed D0 C I) (hL : Lawful root step) {w w2 : World} {ops : List EditOp}
    {ps : List Patch} (ht : Trace B ins step g J w ops ps w2)
    (hop : ∀ op ∈ ops, op.Shuns (fun a => I (g a)) T) (h : Unharmed D0 C I root w.D w.slots)
    (hc : ∀ b n, w.c b = some n → C n → T b) : Unharmed D0 C I root w2.D w2.slots := by
  induction ht with
  | nil w => exact h
  | cons hco hs hg hre _ ih =>
    obtain ⟨h2, h3⟩ := h.edit hE hL (convertOp_sort_one hco) hs hg hre (hop _ (by simp)) hc
    exact ih (fun op ho => hop op (by simp [ho])) h2 h3

end

/-! ### Opaque elements of the old tree -/

section
variable {A : Arena TData} {D : Arena NodeData} {db : Nat} {f : Nat → Nat}

/-- Ancestors in the document are ancestors in the tree. -/
theorem DocRel.anc_of (h : DocRel A D db f) (hw : A.WF) {o n : Nat} (ho : A.Anc 0 o) (hn : A.Anc 0 n)
    (hoo : Plan.Old A o) (hno : Plan.Old A n) (ha : D.Anc (f o) (f n)) : A.Anc o n := by
  induction hn with
  | refl =>
    have h1 : f o = f 0 := by
      rw [h.root] at ha ⊢
      exact (h.wf.anc_antisymm ha (h.anc hw ho hoo))
    rw [h.inj hw ho .refl hoo hno h1]
    exact .refl
  | @step n p hp hap ih =>
    have hpar := h.parent hw hno hp hap
    rcases ha.cases' with e | ⟨q, hq, h2⟩
    · rw [h.inj hw ho (.step hp hap) hoo hno e]
      exact .refl
    · rw [hpar] at hq
      cases hq
      exact .step hp (ih (DocRel.old_parent hw hno hp) h2)

/-- The document nodes of opaque elements and of their content. -/
def Veil (A : Arena TData) (D : Arena NodeData) (f : Nat → Nat) (n : Nat) : Prop :=
  ∃ o, A.Anc 0 o ∧ Plan.Old A o ∧ (A.data o).props.isOpaque = true ∧ D.Anc (f o) n

/-- The document nodes inside opaque elements. -/
def Veiled (A : Arena TData) (D : Arena NodeData) (f : Nat → Nat) (n : Nat) : Prop :=
  ∃ o, A.Anc 0 o ∧ Plan.Old A o ∧ (A.data o).props.isOpaque = true ∧ D.Anc (f o) n ∧ n ≠ f o

theorem DocRel.enclosed (h : DocRel A D db f) (hw : A.WF) : Enclosed D (Veil A D f) (Veiled A D f) where
  kids := by
    rintro p c ⟨o, h1, h2, h3, h4⟩ hc
    have hp := (h.wf.mem_iff _ _).1 hc
    refine ⟨o, h1, h2, h3, .step hp h4, ?_⟩
    rintro rfl
    exact not_anc_parent h.wf hp h4
  sub := fun n ⟨o, h1, h2, h3, h4, _⟩ => ⟨o, h1, h2, h3, h4⟩
  lt := by
    rintro n ⟨o, h1, h2, h3, h4⟩
    rcases h4.cases' with rfl | ⟨p, hp, _⟩
    · exact h.lt hw h1 h2
    · exact (h.wf.lt_of_parent _ _ hp).1

theorem DocRel.not_veiled (h : DocRel A D db f) (hw : A.WF) {a : Nat} (ha : A.Anc 0 a) (hao : Plan.Old A a) :
    ¬ Veiled A D f (f a) := by
  rintro ⟨o, h1, h2, h3, h4, h5⟩
  exact hao.2 ⟨o, h1, h3, h.anc_of hw h1 ha h2 hao h4, by rintro rfl; exact h5 rfl⟩

theorem DocRel.veil_opaque (h : DocRel A D db f) (hw : A.WF) {a : Nat} (ha : A.Anc 0 a) (hao : Plan.Old A a)
    (hv : Veil A D f (f a)) : (A.data a).props.isOpaque = true := by
  obtain ⟨o, h1, h2, h3, h4⟩ := hv
  by_cases e : f a = f o
  · rw [h.inj hw ha h1 hao h2 e]; exact h3
  · exact absurd ⟨o, h1, h2, h3, h4, e⟩ (h.not_veiled hw ha hao)

end

namespace Plan

variable {H : Type} [DecidableEq H] {hashNode : HKind → Option Str → List H → H} {A B : Arena TData} {nb : Nat}
  {M : Matching}

/-- The edit script shuns the content of opaque elements. -/
theorem shuns (hp : Plan A B nb M) {D : Arena NodeData} {db : Nat} {f : Nat → Nat} (hd : DocRel A D db f)
    {op : EditOp} (hop : op ∈ scriptOf hashNode A B 0 nb M) :
    op.Shuns (fun a => Veiled A D f (f a)) (fun b => (B.data b).props.isOpaque = true) := by
  obtain ⟨h1, h2⟩ := C36_script_avoids_opaque_content hp.aw hp.bw M op hop
  have hold : ∀ a, A.Anc 0 a → ¬ InsideOpaque A 0 a → ¬ Veiled A D f (f a) := by
    intro a ha hi
    have hlt : a < A.next := by
      rcases ha.cases' with rfl | ⟨p, hp', _⟩
      · exact hp.apos
      · exact (hp.aw.lt_of_parent _ _ hp').1
    exact hd.not_veiled hp.aw ha ⟨hlt, hi⟩
  have hpair : ∀ a b, (a, b) ∈ M.pairs → A.Anc 0 a := fun a b hab => hp.areach a (hp.lt a b hab).1
  have hpar : ∀ b pb, B.parent b = some pb → B.Anc nb pb → ¬ InsideOpaque B nb b →
      ¬ (B.data pb).props.isOpaque = true := by
    intro b pb hb hpb hi e
    exact hi (InsideOpaque.of_opaque hp.bw hb hpb e)
  have hup : ∀ b pb, B.parent b = some pb → B.Anc nb b → b ≠ nb → B.Anc nb pb := by
    intro b pb hb hab hne
    rcases hab.cases' with e | ⟨q, hq, h⟩
    · exact absurd e.symm hne
    · rw [hb] at hq; cases hq; exact h
  cases op with
  | updateProps a b ch =>
    obtain ⟨p, g1, g2, g3, g4⟩ := mem_updateOps.1 ((mem_script_phase hop).2.2.2 rfl)
    have hab : (a, b) ∈ M.pairs := by
      rcases g4 with g4 | g4
      · unfold textOps at g4
        split at g4
        · cases g4
        · split at g4
          · simp at g4
          · cases g4
      · rw [Plan.propOps_eq] at g4
        split at g4
        · rw [List.mem_singleton] at g4; cases g4; exact g1
        · cases g4
    exact hold a (hpair a b hab) (h1 a rfl)
  | setText a b t =>
    have := (C13_text_updates_exactly_when_needed hp.aw hp.bw M a b t).1 hop
    exact hold a (hpair a b this.1) (h1 a rfl)
  | delete a =>
    have := (C11_deletes_are_the_unmatched hp.aw hp.apos M a).1 hop
    exact hold a this.1 this.2.2
  | insert b pb pos kind =>
    have := (C10_inserts_are_the_unmatched hp.bw M b pb pos kind).1 hop
    obtain ⟨g1, g2, g3, g4, _⟩ := this
    refine hpar b pb g4 (hup b pb g4 g1 ?_) g3
    rintro rfl
    rw [(hp.getA _ _).2 hp.root] at g2
    cases g2
  | move a b pb pos =>
    have := (C12_moves_exactly_when_needed hp.aw hp.bw M a b pb pos).1 hop
    obtain ⟨g1, g2, g3, g4, g5, pa, g6, _⟩ := this
    refine ⟨hold a (hpair a b g1) g2, ?_⟩
    have hbn : b ≠ nb := by
      rintro rfl
      have := hp.fn2 g1 hp.root
      subst this
      rw [hp.a0] at g6
      cases g6
    exact hpar b pb g4 (hup b pb g4 (hp.lt a b g1).2 hbn) g3

end Plan
end Hotmeal
