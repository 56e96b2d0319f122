import Verif.Lemmas.Block
import Verif.Lemmas.MirrorHtml
import Verif.Lemmas.Copy
import Verif.Lemmas.Traffic

set_option autoImplicit false
set_option linter.unusedSectionVars false

/-!
# A part of the document that a run of patches leaves alone
-/

namespace Hotmeal

/-- The subtree of `x` is what it was in `D0`, and `x` is the child number `k` of `root`. -/
structure Spared (D0 : Arena NodeData) (root k x : Nat) (D : Arena NodeData) (slots : Slots) : Prop where
  wf : D.WF
  next : D0.next ≤ D.next
  slot : slots 0 = some root
  kid : (D.children root)[k]? = some x
  children : ∀ n, D0.Anc x n → D.children n = D0.children n
  data : ∀ n, D0.Anc x n → D.data n = D0.data n

namespace Spared

variable {D0 D D' : Arena NodeData} {root k x : Nat} {slots slots' : Slots}
  (h : Spared D0 root k x D slots) (hw : D0.WF) (hx : x < D0.next)
include h hw

theorem anc {n : Nat} (hn : D.Anc x n) : D0.Anc x n := by
  induction hn with
  | refl => exact .refl
  | @step n p hp _ ih =>
    have := (h.wf.mem_iff _ _).2 hp
    rw [h.children p ih] at this
    exact .step ((hw.mem_iff _ _).1 this) ih

/-- Children of nodes of the part belong to it. -/
theorem down {n p : Nat} (hp : D.parent n = some p) (hs : D0.Anc x p) : D0.Anc x n := by
  have := (h.wf.mem_iff _ _).2 hp
  rw [h.children p hs] at this
  exact .step ((hw.mem_iff _ _).1 this) hs

/-- Paths into the part. -/
theorem nav {q : Path} {n : Nat} (hq : navigate D slots q = .ok n) (hp : [0, k] <+: q) : D0.Anc x n := by
  obtain ⟨r, rfl⟩ := hp
  simp only [List.cons_append, List.nil_append, navigate, h.slot, navLoop, h.kid] at hq
  exact h.anc hw (h.wf.navLoop_anc hq)

theorem setData {n : Nat} (d : NodeData) (hn : ¬ D0.Anc x n) :
    Spared D0 root k x (D.setData n d) slots := by
  refine ⟨h.wf.setData n d, h.next, h.slot, h.kid, h.children, fun m hm => ?_⟩
  rw [← h.data m hm]
  show Arena.upd D.data n d m = _
  rw [Arena.upd_apply, if_neg]
  rintro rfl
  exact hn hm

include hx

theorem lt {n : Nat} (hn : D0.Anc x n) : n < D.next := by
  have := h.next
  rcases hn.cases' with rfl | ⟨p, hp, _⟩
  · omega
  · have := (hw.lt_of_parent _ _ hp).1; omega

theorem newNode (d : NodeData) (hs : slots' 0 = slots 0) :
    Spared D0 root k x (D.newNode d).1 slots' := by
  refine ⟨h.wf.newNode d, ?_, hs.trans h.slot, ?_, fun n hn => ?_, fun n hn => ?_⟩
  · rw [Arena.newNode_next]; have := h.next; omega
  · rw [h.wf.newNode_children]; exact h.kid
  · rw [h.wf.newNode_children]; exact h.children n hn
  · have := h.lt hw hx hn
    rw [Arena.newNode_data, if_neg (by omega)]; exact h.data n hn

theorem created {d : NodeData} (hc : Created D D' d) (hr : root < D.next) : Spared D0 root k x D' slots := by
  refine ⟨hc.wf, Nat.le_trans h.next (Nat.le_of_lt hc.next_lt), h.slot, ?_, fun n hn => ?_, fun n hn => ?_⟩
  · rw [hc.children _ hr]; exact h.kid
  · rw [hc.children _ (h.lt hw hx hn)]; exact h.children n hn
  · rw [hc.data _ (h.lt hw hx hn)]; exact h.data n hn

theorem replaced {n p : Nat} {d : NodeData} (hp : D.parent n = some p) (hr : D.Replaced D' n p d)
    (hn : ¬ D0.Anc x n) (hs : slots' 0 = slots 0) : Spared D0 root k x D' slots' := by
  have hps : ¬ D0.Anc x p := fun e => hn (h.down hw hp e)
  refine ⟨hr.wf, ?_, hs.trans h.slot, ?_, fun m hm => ?_, fun m hm => ?_⟩
  · rw [hr.next]; have := h.next; omega
  · rw [hr.children]
    split
    · next e =>
      rw [Arena.swapIn_getElem?, ← e, h.kid]
      simp only [Option.map_some, Option.some.injEq]
      rw [if_neg]
      rintro rfl; exact hn .refl
    · exact h.kid
  · rw [hr.children, if_neg (by rintro rfl; exact hps hm)]; exact h.children m hm
  · have := h.lt hw hx hm
    rw [hr.data, if_neg (by omega)]; exact h.data m hm

theorem put {n p pos occ : Nat} (hd : DPut D D' n p pos occ) (hp : ¬ D0.Anc x p)
    (hpos : ¬ (p = root ∧ pos = k)) (hs : slots' 0 = slots 0) : Spared D0 root k x D' slots' := by
  refine ⟨hd.wf, ?_, hs.trans h.slot, ?_, fun m hm => ?_, fun m hm => ?_⟩
  · rw [hd.next]; exact h.next
  · rw [hd.children]
    split
    · next e =>
      rw [List.getElem?_set_ne (fun e' => hpos ⟨e.symm, e'⟩), ← e]; exact h.kid
    · exact h.kid
  · rw [hd.children, if_neg (by rintro rfl; exact hp hm)]; exact h.children m hm
  · rw [hd.data]; exact h.data m hm

theorem app {n p pos : Nat} (hd : DApp D D' n p pos) (hp : ¬ D0.Anc x p)
    (hpos : p = root → k < pos) (hs : slots' 0 = slots 0) : Spared D0 root k x D' slots' := by
  refine ⟨hd.wf, ?_, hs.trans h.slot, ?_, fun m hm => ?_, fun m hm => ?_⟩
  · rw [hd.next]; have := h.next; omega
  · by_cases e : root = p
    · obtain ⟨rest, _, hc⟩ := hd.children
      have hk := h.kid
      rw [e] at hk ⊢
      have hlt := (List.getElem?_eq_some_iff.1 hk).1
      rw [hc, List.append_assoc, List.getElem?_append_left, List.getElem?_take_of_lt (hpos e.symm)]
      · exact hk
      · rw [List.length_take]; have := hpos e.symm; omega
    · rw [hd.children_ne _ e]; exact h.kid
  · rw [hd.children_ne _ (by rintro rfl; exact hp hm)]; exact h.children m hm
  · have := h.lt hw hx hm
    rw [hd.data, if_neg (by omega)]; exact h.data m hm

end Spared

/-- The operation is not about the subtree `S` of the old tree and `Sb` of the new tree, and does not put a node
at the place `k` below the root `nb`. -/
def EditOp.Avoids (S : Nat → Prop) (Sb : Nat → Prop) (nb k : Nat) : EditOp → Prop
  | .updateProps a _ _ => ¬ S a
  | .setText a _ _ => ¬ S a
  | .delete a => ¬ S a
  | .insert _ pb pos _ => ¬ Sb pb ∧ ¬ (pb = nb ∧ pos = k)
  | .move a _ pb pos => ¬ S a ∧ ¬ Sb pb ∧ ¬ (pb = nb ∧ pos = k)

/-- Of a regular insertion. -/
theorem Regular.insert_inv {J : Nat → Prop} {D : Arena NodeData} {slots : Slots} {P : Patch}
    (h : Regular J D slots P) (hs : P.sort = .insert) :
    ∃ (q : Path) (nk : NodeKind) (cs : List InsertContent) (p pos : Nat) (slot : Option Nat),
      P = insertPatch (q ++ [pos]) nk cs slot ∧ nk.Clean ∧ (cs ≠ [] → nk.IsElement) ∧
      navigate D slots q = .ok p ∧ (D.data p).kind.IsElement ∧ p < D.next ∧ AtPos J D p pos slot := by
  cases h with
  | insert q nk cs p pos slot hc hcs hq he hp ha => exact ⟨q, nk, cs, p, pos, slot, rfl, hc, hcs, hq, he, hp, ha⟩
  | setText => cases hs
  | updateProps => cases hs
  | remove => cases hs
  | removeFree => cases hs
  | move => cases hs

theorem insertPatch_sort (at_ : Path) (nk : NodeKind) (cs : List InsertContent) (slot : Option Nat) :
    (insertPatch at_ nk cs slot).sort = .insert := by
  cases nk <;> rfl

/-- Of a regular change of attributes. -/
theorem Regular.props_inv {J : Nat → Prop} {D : Arena NodeData} {slots : Slots} {q : Path} {ch : List PropChange}
    (h : Regular J D slots (.updateProps q ch)) :
    ∃ n tag attrs ns, navigate D slots q = .ok n ∧ D.data n = ⟨.element tag attrs, ns⟩ ∧ attrs.keys.Nodup ∧
      (ch.map PropChange.name).Nodup ∧ PropKey.text ∉ ch.map PropChange.name := by
  generalize hP : Patch.updateProps q ch = P at h
  cases h with
  | updateProps q' n tag attrs ns ch' hq hd hk hn ht => cases hP; exact ⟨n, tag, attrs, ns, hq, hd, hk, hn, ht⟩
  | insert => have := congrArg Patch.sort hP; rw [insertPatch_sort] at this; cases this
  | _ => cases hP

/-- Of a regular change of a text. -/
theorem Regular.text_inv {J : Nat → Prop} {D : Arena NodeData} {slots : Slots} {q : Path} {t : Str}
    (h : Regular J D slots (.setText q t)) :
    ∃ n s ns, navigate D slots q = .ok n ∧ (D.data n = ⟨.text s, ns⟩ ∨ D.data n = ⟨.comment s, ns⟩) := by
  generalize hP : Patch.setText q t = P at h
  cases h with
  | setText q' n s ns t' hq hd => cases hP; exact ⟨n, s, ns, hq, hd⟩
  | insert => have := congrArg Patch.sort hP; rw [insertPatch_sort] at this; cases this
  | _ => cases hP

/-- Of a regular removal. -/
theorem Regular.remove_inv {J : Nat → Prop} {D : Arena NodeData} {slots : Slots} {q : Path}
    (h : Regular J D slots (.remove q)) :
    (∃ n p, navigate D slots q = .ok n ∧ 1 < q.length ∧ D.parent n = some p) ∨
    ∃ k n, q = [k] ∧ k ≠ 0 ∧ slots k = some n ∧ n < D.next ∧ D.parent n = none := by
  generalize hP : Patch.remove q = P at h
  cases h with
  | remove q' n p hq hl hp => cases hP; exact .inl ⟨n, p, hq, hl, hp⟩
  | removeFree k n hk hs hn hp => cases hP; exact .inr ⟨k, n, rfl, hk, hs, hn, hp⟩
  | insert => have := congrArg Patch.sort hP; rw [insertPatch_sort] at this; cases this
  | _ => cases hP

/-- Of a regular move. -/
theorem Regular.move_inv {J : Nat → Prop} {D : Arena NodeData} {slots : Slots} {q t : Path} {slot : Option Nat}
    (h : Regular J D slots (.move q t slot)) :
    ∃ n q' p pos, t = q' ++ [pos] ∧ navigate D slots q = .ok n ∧ n < D.next ∧
      ((1 < q.length ∧ ∃ p, D.parent n = some p) ∨ (q.length = 1 ∧ q ≠ [0] ∧ D.parent n = none)) ∧
      ∀ D1 slots1, Taken D slots q n D1 slots1 → navigate D1 slots1 q' = .ok p ∧
        (D1.data p).kind.IsElement ∧ p < D1.next ∧ ¬ D1.Anc n p ∧ AtPos J D1 p pos slot := by
  generalize hP : Patch.move q t slot = P at h
  cases h with
  | move q0 n q' p pos slot' hq hn hc hm => cases hP; exact ⟨n, q', p, pos, rfl, hq, hn, hc, hm⟩
  | insert => have := congrArg Patch.sort hP; rw [insertPatch_sort] at this; cases this
  | _ => cases hP

theorem insertPatch_paths (at_ : Path) (nk : NodeKind) (cs : List InsertContent) (slot : Option Nat) :
    (insertPatch at_ nk cs slot).paths = [at_] := by
  cases nk <;> rfl

/-- A path that ends with the position of a child. -/
theorem Spared.concat {D0 D : Arena NodeData} {root k x : Nat} {slots : Slots}
    (h : Spared D0 root k x D slots) (hw : D0.WF) {q : Path} {p pos : Nat}
    (hq : navigate D slots q = .ok p) (hp : ¬ D0.Anc x p) (hpos : ¬ (p = root ∧ pos = k)) :
    ¬ [0, k] <+: q ++ [pos] := by
  intro hpre
  rcases List.prefix_concat_iff.1 hpre with e | e
  · have : q = [0] ∧ pos = k := by
      have h1 : q ++ [pos] = [0] ++ [k] := e.symm
      have h2 := List.append_inj_left' h1 rfl
      have h3 := List.append_inj_right' h1 rfl
      exact ⟨h2, by simpa using h3⟩
    obtain ⟨rfl, rfl⟩ := this
    simp only [navigate, h.slot, navLoop] at hq
    cases hq
    exact hpos ⟨rfl, rfl⟩
  · exact hp (h.nav hw hq e)

section
variable {D0 : Arena NodeData} {root k x nb : Nat} {S Sb : Nat → Prop} {g : Nat → Nat} {step : StepFn}
  {B : Arena TData} {ins : List Nat} {J : Nat → Prop}

/-- One operation of the run. -/
theorem Spared.edit (hw : D0.WF) (hx : x < D0.next) (hr : root < D0.next) (hroot : ¬ D0.Anc x root)
    (hL : Lawful root step)
    (hJ : ¬ J x) (hS : ∀ a, D0.Anc x (g a) → S a) {w w1 : World} {op : EditOp} {P : Patch}
    (hsort : P.sort = op.sort)
    (hs : step w.D w.slots P = .ok (w1.D, w1.slots)) (hg : Addresses g w op P w1)
    (hre : Regular J w.D w.slots P) (hop : op.Avoids S Sb nb k)
    (h : Spared D0 root k x w.D w.slots)
    (hc : ∀ b n, w.c b = some n → (D0.Anc x n → Sb b) ∧ (n = root → b = nb)) :
    (∀ q ∈ P.paths, ¬ [0, k] <+: q) ∧ Spared D0 root k x w1.D w1.slots ∧
      ∀ b n, w1.c b = some n → (D0.Anc x n → Sb b) ∧ (n = root → b = nb) := by
  have hat : ∀ {D : Arena NodeData} {slots : Slots} {p pos : Nat}, Spared D0 root k x D slots →
      AtPos J D p pos none → p = root → k < pos := by
    intro D slots p pos hD ha e
    rcases ha with ⟨_, _, ha, _⟩ | ⟨_, ha⟩
    · cases ha
    · have hk := hD.kid
      rw [← e] at hk
      apply Classical.byContradiction
      intro hlt
      refine hJ (ha x (List.mem_of_getElem? (i := k - pos) ?_))
      rw [List.getElem?_drop]
      rw [show pos + (k - pos) = k by omega]
      exact hk
  cases op with
  | updateProps a b ch =>
    obtain ⟨hwc, q, rfl, hq⟩ := hg
    have hn : ¬ D0.Anc x (g a) := fun e => hop (hS a e)
    refine ⟨?_, ?_, by rw [hwc]; exact hc⟩
    · intro q' hq' hpre
      rw [List.mem_singleton.1 hq'] at hpre
      exact hn (h.nav hw hq hpre)
    · obtain ⟨n, tag, attrs, ns, hq', hd, hk, hnn, ht⟩ := hre.props_inv
      · rw [hL.updateProps _ _ _ _ _ _ _ _ h.slot hq' hd hk hnn ht] at hs
        simp only [Except.ok.injEq, Prod.mk.injEq] at hs
        rw [← hs.1, ← hs.2]
        rw [hq] at hq'; cases hq'
        exact h.setData hw _ hn
  | setText a b t =>
    obtain ⟨hwc, q, rfl, hq⟩ := hg
    have hn : ¬ D0.Anc x (g a) := fun e => hop (hS a e)
    refine ⟨?_, ?_, by rw [hwc]; exact hc⟩
    · intro q' hq' hpre
      rw [List.mem_singleton.1 hq'] at hpre
      exact hn (h.nav hw hq hpre)
    · obtain ⟨n, s, ns, hq', hd⟩ := hre.text_inv
      · rcases hd with hd | hd
        · rw [hL.setText_text _ _ _ _ _ _ _ h.slot hq' hd] at hs
          simp only [Except.ok.injEq, Prod.mk.injEq] at hs
          rw [← hs.1, ← hs.2]
          rw [hq] at hq'; cases hq'
          exact h.setData hw _ hn
        · rw [hL.setText_comment _ _ _ _ _ _ _ h.slot hq' hd] at hs
          simp only [Except.ok.injEq, Prod.mk.injEq] at hs
          rw [← hs.1, ← hs.2]
          rw [hq] at hq'; cases hq'
          exact h.setData hw _ hn
  | delete a =>
    obtain ⟨hwc, q, rfl, hq⟩ := hg
    have hn : ¬ D0.Anc x (g a) := fun e => hop (hS a e)
    refine ⟨?_, ?_, by rw [hwc]; exact hc⟩
    · intro q' hq' hpre
      rw [List.mem_singleton.1 hq'] at hpre
      exact hn (h.nav hw hq hpre)
    · rcases hre.remove_inv with ⟨n, p, hq', hl, hp⟩ | ⟨s, n, rfl, hk, hsl, hnl, hp⟩
      · rw [hq] at hq'; cases hq'
        obtain ⟨D', e, hrep⟩ := hL.remove _ _ _ _ _ h.slot h.wf hq hl hp
        rw [e] at hs
        simp only [Except.ok.injEq, Prod.mk.injEq] at hs
        rw [← hs.1, ← hs.2]
        exact h.replaced hw hx hp hrep hn rfl
      · obtain ⟨D', slots', e, h1, h2⟩ := hL.removeFree _ _ _ _ h.slot h.wf hk hsl hnl hp
        rw [e] at hs
        simp only [Except.ok.injEq, Prod.mk.injEq] at hs
        rw [← hs.1, ← hs.2]
        have hz : slots' 0 = w.slots 0 := by
          rcases h2 with h2 | h2
          · rw [h2]
          · rw [h2, Arena.upd_apply, if_neg (fun e => hk e.symm)]
        rcases h1 with h1 | h1
        · rw [h1]; exact ⟨h.wf, h.next, hz.trans h.slot, h.kid, h.children, h.data⟩
        · rw [h1]; exact h.newNode hw hx _ hz
  | insert b pb pos kind =>
    obtain ⟨hwc, p, hp, hpar, hch⟩ := hg
    obtain ⟨hb1, hb2⟩ := hop
    obtain ⟨q, nk, cs, p', pos', slot, rfl, h1, h2, hq, he, hlt, ha⟩ := hre.insert_inv hsort
    obtain ⟨D1, hcr, _, _, hput, happ⟩ := hL.insert _ _ q nk cs p' h.slot h.wf h1 h2 hq he hlt
    have hrl : root < w.D.next := Nat.lt_of_lt_of_le hr h.next
    have hD1 := h.created hw hx hcr hrl
    have key : p' = p ∧ pos' = pos → (¬ D0.Anc x p') ∧ ¬ (p' = root ∧ pos' = k) := by
      rintro ⟨rfl, rfl⟩
      exact ⟨fun e => hb1 ((hc _ _ hp).1 e), fun e => hb2 ⟨(hc _ _ hp).2 e.1, e.2⟩⟩
    have hwf1 : ∀ i, (w1.D.children p')[i]? = some w.D.next → w1.D.WF → p' = p ∧ i = pos := by
      intro i hi hwf
      have := (hwf.mem_iff _ _).1 (List.mem_of_getElem? hi)
      rw [hpar] at this
      cases this
      exact ⟨rfl, List.nodup_getElem?_inj (hwf.nodup _) hi hch⟩
    have fin : (¬ D0.Anc x p') ∧ ¬ (p' = root ∧ pos' = k) ∧ Spared D0 root k x w1.D w1.slots := by
      rcases ha with ⟨s, occ, rfl, hs0, hocc⟩ | ⟨rfl, hdrop⟩
      · obtain ⟨D', e, hdp⟩ := hput pos' occ s hs0 hocc
        rw [e] at hs
        simp only [Except.ok.injEq, Prod.mk.injEq] at hs
        have hk1 : p' = p ∧ pos' = pos := by
          apply hwf1
          · rw [← hs.1, hdp.children, if_pos rfl, List.getElem?_set_self]
            exact (List.getElem?_eq_some_iff.1 hdp.at_).1
          · rw [← hs.1]; exact hdp.wf
        obtain ⟨k1, k2⟩ := key hk1
        refine ⟨k1, k2, ?_⟩
        rw [← hs.1, ← hs.2]
        exact hD1.put hw hx hdp k1 k2 (by rw [Arena.upd_apply, if_neg (fun e => hs0 e.symm)])
      · obtain ⟨D', e, hda⟩ := happ pos'
        rw [e] at hs
        simp only [Except.ok.injEq, Prod.mk.injEq] at hs
        have hk1 : p' = p ∧ pos' = pos := by
          apply hwf1
          · rw [← hs.1]
            obtain ⟨rest, _, hc'⟩ := hda.children
            rw [hc', List.getElem?_append_right]
            · rw [List.length_append, List.length_take, List.length_range']
              rw [show pos' - (min pos' (D1.children p').length + (pos' - (D1.children p').length)) = 0 by omega]
              rfl
            · rw [List.length_append, List.length_take, List.length_range']; omega
          · rw [← hs.1]; exact hda.wf
        obtain ⟨k1, k2⟩ := key hk1
        refine ⟨k1, k2, ?_⟩
        rw [← hs.1, ← hs.2]
        exact hD1.app hw hx hda k1 (hat h (.inr ⟨rfl, hdrop⟩)) rfl
    obtain ⟨k1, k2, k3⟩ := fin
    refine ⟨?_, k3, ?_⟩
    · intro q' hq'
      rw [insertPatch_paths, List.mem_singleton] at hq'
      subst hq'
      exact h.concat hw hq k1 k2
    · intro b' n hn
      rw [hwc, Arena.upd_apply] at hn
      split at hn
      · cases hn
        refine ⟨fun e => ?_, fun e => ?_⟩
        · have := h.lt hw hx e; omega
        · omega
      · exact hc _ _ hn
  | move a b pb pos =>
    obtain ⟨hwc, q, t, slot, rfl, hq, p, hp, hpar, hch⟩ := hg
    obtain ⟨ha', hb1, hb2⟩ := hop
    have hn : ¬ D0.Anc x (g a) := fun e => ha' (hS a e)
    obtain ⟨n, q', p', pos', rfl, hq', hnl, hcase, hm⟩ := hre.move_inv
    rw [hq] at hq'; cases hq'
    obtain ⟨D1, slots1, htk, hput, happ⟩ := hL.move _ _ _ _ h.slot h.wf hq hnl hcase
    obtain ⟨m1, m2, m3, m4, m5⟩ := hm D1 slots1 htk
    have hD1 : Spared D0 root k x D1 slots1 := by
      rcases htk with ⟨hl, e, hrep⟩ | ⟨s, e1, e2, e3⟩
      · rcases hcase with ⟨_, p0, hp0⟩ | ⟨hl', _⟩
        · exact h.replaced hw hx hp0 (hrep p0 hp0) hn (by rw [e])
        · omega
      · have hz : slots1 0 = w.slots 0 := by
          rcases e3 with e3 | e3
          · rw [e3]
          · rw [e3, Arena.upd_apply, if_neg]
            intro e
            rcases hcase with ⟨hl, _⟩ | ⟨_, hne, _⟩
            · rw [e1] at hl; simp at hl
            · exact hne (by rw [e1, e])
        rw [e2]
        exact ⟨h.wf, h.next, hz.trans h.slot, h.kid, h.children, h.data⟩
    have key : p' = p ∧ pos' = pos → (¬ D0.Anc x p') ∧ ¬ (p' = root ∧ pos' = k) := by
      rintro ⟨rfl, rfl⟩
      exact ⟨fun e => hb1 ((hc _ _ hp).1 e), fun e => hb2 ⟨(hc _ _ hp).2 e.1, e.2⟩⟩
    have hwf1 : ∀ i, (w1.D.children p')[i]? = some (g a) → w1.D.WF → p' = p ∧ i = pos := by
      intro i hi hwf
      have := (hwf.mem_iff _ _).1 (List.mem_of_getElem? hi)
      rw [hpar] at this
      cases this
      exact ⟨rfl, List.nodup_getElem?_inj (hwf.nodup _) hi hch⟩
    have fin : (¬ D0.Anc x p') ∧ ¬ (p' = root ∧ pos' = k) ∧ Spared D0 root k x w1.D w1.slots := by
      rcases m5 with ⟨s, occ, rfl, hs0, hocc⟩ | ⟨rfl, hdrop⟩
      · obtain ⟨D', e, hdp⟩ := hput q' p' pos' occ s hs0 m1 m2 m3 m4 hocc
        rw [e] at hs
        simp only [Except.ok.injEq, Prod.mk.injEq] at hs
        have hk1 : p' = p ∧ pos' = pos := by
          apply hwf1
          · rw [← hs.1, hdp.children, if_pos rfl, List.getElem?_set_self]
            exact (List.getElem?_eq_some_iff.1 hdp.at_).1
          · rw [← hs.1]; exact hdp.wf
        obtain ⟨k1, k2⟩ := key hk1
        refine ⟨k1, k2, ?_⟩
        rw [← hs.1, ← hs.2]
        exact hD1.put hw hx hdp k1 k2 (by rw [Arena.upd_apply, if_neg (fun e => hs0 e.symm)])
      · obtain ⟨D', e, hda⟩ := happ q' p' pos' m1 m2 m3 m4
        rw [e] at hs
        simp only [Except.ok.injEq, Prod.mk.injEq] at hs
        have hk1 : p' = p ∧ pos' = pos := by
          apply hwf1
          · rw [← hs.1]
            obtain ⟨rest, _, hc'⟩ := hda.children
            rw [hc', List.getElem?_append_right]
            · rw [List.length_append, List.length_take, List.length_range']
              rw [show pos' - (min pos' (D1.children p').length + (pos' - (D1.children p').length)) = 0 by omega]
              rfl
            · rw [List.length_append, List.length_take, List.length_range']; omega
          · rw [← hs.1]; exact hda.wf
        obtain ⟨k1, k2⟩ := key hk1
        refine ⟨k1, k2, ?_⟩
        rw [← hs.1, ← hs.2]
        exact hD1.app hw hx hda k1 (hat hD1 (.inr ⟨rfl, hdrop⟩)) rfl
    obtain ⟨k1, k2, k3⟩ := fin
    refine ⟨?_, k3, by rw [hwc]; exact hc⟩
    intro r hr' hpre
    simp only [Patch.paths, List.mem_cons, List.not_mem_nil, or_false] at hr'
    rcases hr' with rfl | rfl
    · exact hn (h.nav hw hq hpre)
    · exact hD1.concat hw m1 k1 k2 hpre

theorem convertOp_sort_one {C C' : Conv} {op : EditOp} {P : Patch}
    (h : convertOp B ins C op = .ok (C', [P])) : P.sort = op.sort := by
  obtain ⟨h1, h2⟩ := convertOp_sort h
  by_cases e : op.sort = .move
  · apply Classical.byContradiction
    intro hne
    have := h1 P.sort (by rw [← e]; exact hne)
    rw [if_neg (fun e => hne e.symm)] at this
    simp [countSort] at this
  · have := h1 op.sort e
    rw [if_pos rfl] at this
    simpa [countSort, List.countP_cons] using this

/-- The run leaves the part alone, at every point of time. -/
theorem Trace.spared (hw : D0.WF) (hx : x < D0.next) (hr : root < D0.next) (hroot : ¬ D0.Anc x root)
    (hL : Lawful root step) (hJ : ¬ J x) (hS : ∀ a, D0.Anc x (g a) → S a)
    {w w2 : World} {ops : List EditOp} {ps : List Patch} (ht : Trace B ins step g J w ops ps w2)
    (hop : ∀ op ∈ ops, op.Avoids S Sb nb k) (h : Spared D0 root k x w.D w.slots)
    (hc : ∀ b n, w.c b = some n → (D0.Anc x n → Sb b) ∧ (n = root → b = nb)) :
    (∀ P ∈ ps, ∀ q ∈ P.paths, ¬ [0, k] <+: q) ∧
    ∀ qs, qs <+: ps → ∃ ops' w', (∀ op ∈ ops', op ∈ ops) ∧ Trace B ins step g J w ops' qs w' ∧
      Spared D0 root k x w'.D w'.slots := by
  induction ht with
  | nil w =>
    refine ⟨by simp, fun qs hqs => ?_⟩
    rw [List.prefix_nil.1 hqs]
    exact ⟨[], w, by simp, .nil _, h⟩
  | cons hco hs hg hre _ ih =>
    obtain ⟨h1, h2, h3⟩ := h.edit hw hx hr hroot hL hJ hS (convertOp_sort_one hco) hs hg hre
      (hop _ (by simp)) hc
    obtain ⟨i1, i2⟩ := ih (fun op ho => hop op (by simp [ho])) h2 h3
    refine ⟨fun P hP => ?_, fun qs hqs => ?_⟩
    · rcases List.mem_cons.1 hP with rfl | hP
      · exact h1
      · exact i1 P hP
    · cases qs with
      | nil => exact ⟨[], _, by simp, .nil _, h⟩
      | cons Q qs =>
        obtain ⟨rfl, hqs'⟩ := List.cons_prefix_cons.1 hqs
        obtain ⟨ops', w', hsub, ht', hD⟩ := i2 qs hqs'
        refine ⟨_ :: ops', w', fun op ho => ?_, .cons hco hs hg hre ht', hD⟩
        rcases List.mem_cons.1 ho with rfl | ho
        · exact List.mem_cons_self
        · exact List.mem_cons_of_mem _ (hsub op ho)

end
end Hotmeal
