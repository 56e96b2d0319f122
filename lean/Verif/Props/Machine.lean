import Verif.Model.Machine
import Verif.Props.Tables
import Verif.Props.Float
import Verif.Props.Numbers
import Verif.Props.Hash
import Verif.Props.Wire

set_option autoImplicit false
set_option linter.unusedSectionVars false

/-!
# C76: what runs on the machine is what the theorems are about
-/

namespace Hotmeal
namespace Machine

open Tables

variable {old new : Document} {ob nb : Nat}

theorem dice_f64 {c m n : Nat} (hc : c ≤ m) (h : m + n ≤ 2 ^ 25) :
    Scoring.f64.dice c m n = F64.val ((Scoring.exact Config.diff).dice c m n) ∧
      F64.Small ((Scoring.exact Config.diff).dice c m n) := by
  simp only [Scoring.f64, Scoring.exact]
  split
  · refine ⟨?_, by decide, by decide, by decide⟩
    unfold F64.val
    norm_num
    exact F64.rnd_one.symm
  · next hne =>
    have hpos : 0 < m + n := by
      apply Nat.pos_of_ne_zero
      intro e
      obtain ⟨rfl, rfl⟩ : m = 0 ∧ n = 0 := by omega
      exact hne rfl
    refine ⟨?_, hpos, h, by simp only; omega⟩
    have e1 : F64.mul 2 (F64.ofNat c) = F64.ofNat (2 * c) := by
      unfold F64.mul
      rw [F64.ofNat_eq (n := c) (by omega)]
      unfold F64.ofNat
      push_cast
      rfl
    rw [e1, F64.div_ofNat (by omega) (by omega)]
    rfl

theorem agrees_f64 {H : Type} [DecidableEq H] {TA TB : DiffTree H} (h : F64.SmallTrees TA TB) :
    Agrees Scoring.f64 Config.diff (fun x s => x = F64.val s ∧ F64.Small s) TA TB where
  sim := fun _ ha _ hb => h.sim ha hb
  dice := fun a ha b hb _ hc => dice_f64 hc (h.size a ha b hb)
  enough := by
    rintro x s ⟨rfl, hs⟩
    exact F64.val_half hs.pos (Nat.le_trans hs.den (by decide))
  better := by
    rintro x s y t ⟨rfl, hs⟩ ⟨rfl, ht⟩
    exact F64.val_gt hs ht

variable {H : Type} [DecidableEq H] {hashNode : HKind → Option Str → List H → H} {zero : H}

theorem small_tables {missing : NodeInfo H} (hold : old.Sound) (hnew : new.Sound) (ho : old.body = some ob)
    (hn : new.body = some nb) (hs : old.size + new.size ≤ 2 ^ 25) (h1 : F64.FewAttrs old) (h2 : F64.FewAttrs new)
    (hm : missing.props.length ≤ 2 ^ 50) : F64.SmallTrees (treeA hashNode zero (buildTree old ob))
      (treeB (nodeTable hashNode zero new.arena nb) zero missing new.arena nb) := by
  have h := F64.small_trees (hashNode := hashNode) hold hnew ho hn hs h1 h2
  have hdesc : ∀ n, new.arena.descendants n = (diffable new).descendants n := fun n => (diffable_fold new _ n).symm
  have hw := hnew.arena.wf
  refine ⟨fun a ha b hb => ?_, fun a ha b hb => ?_⟩
  · have hb' : b ∈ (diffable new).descendants nb := by rw [← hdesc]; exact hb
    have := h.size a ha b hb'
    change ((buildTree old ob).descendants a).length + (new.arena.descendants b).length ≤ _
    rw [hdesc]
    exact this
  · show ((buildTree old ob).data a).props.keySet.length +
      (((nodeTable hashNode zero new.arena nb b).map NodeInfo.props).getD missing.props).keySet.length ≤ _
    have ha' : ((buildTree old ob).data a).props.keySet.length ≤ 2 ^ 50 := by
      obtain ⟨g, hbt⟩ := buildTree_spec old hold.arena.leafy ob
      refine Nat.le_trans (F64.keySet_le _) ?_
      by_cases h0 : a = 0
      · rw [h0, hbt.rdata]; exact Nat.zero_le _
      · have hlt : a < (buildTree old ob).next := by
          rcases ((hbt.wf.mem_descendants 0 a).1 ha).cases' with e | ⟨q, hq, _⟩
          · exact absurd e.symm h0
          · exact (hbt.wf.lt_of_parent _ _ hq).1
        rw [hbt.data a hlt h0]
        obtain ⟨q', hq'⟩ := hbt.par a hlt h0
        exact h1.tdata (hold.arena.wf.lt_of_parent _ _ hq').1
    have hb' : (((nodeTable hashNode zero new.arena nb b).map NodeInfo.props).getD missing.props).keySet.length ≤
        2 ^ 50 := by
      refine Nat.le_trans (F64.keySet_le _) ?_
      rw [C69_table hnew hn]
      split
      · next hmem =>
        have hlt : b < new.arena.next := by
          rcases ((hw.mem_descendants nb b).1 hmem).cases' with e | ⟨q, hq, _⟩
          · rw [← e]; exact (hw.lt_of_parent _ _ ((hw.mem_iff _ _).1 (Document.body_spec hn).1)).1
          · exact (hw.lt_of_parent _ _ hq).1
        exact h2.tdata hlt
      · exact hm
    omega

theorem keepsPositions {A : Arena NodeData} (h : A.WF) (hs : A.next ≤ 2 ^ 32) : KeepsPositions (· % 2 ^ 32) A := by
  intro n p hp
  refine Nat.mod_eq_of_lt ?_
  have h1 := List.getElem?_eq_some_iff.1 (Arena.getElem?_posIn ((h.mem_iff n p).2 hp))
  have h2 := h.fan_next p
  exact Nat.lt_of_lt_of_le h1.1 (Nat.le_trans h2 hs)

/-- **C76**: for two documents with up to `2^25` (33 million) nodes together, what the machine computes with tables
and caches, doubles, 32-bit positions, paths and slots and 64-bit hashes is what `diff` is in the other theorems.
The order in which hash sets are iterated does not matter, nor does what a lookup outside the body would give. -/
theorem C76_machine_is_diff (atom : Str → UInt32) (hasher : List UInt8 → UInt64) (order : List Nat → List Nat)
    (horder : ∀ l, (order l).Perm l) (missing : NodeInfo UInt64) (hm : missing.props.length ≤ 2 ^ 50)
    (hold : old.Sound) (hnew : new.Sound) (hs : old.arena.next + new.arena.next ≤ 2 ^ 25)
    (h1 : F64.FewAttrs old) (h2 : F64.FewAttrs new) :
    Machine.diff atom hasher order missing old new = Hotmeal.diff (Hash.node atom hasher) old new := by
  have s1 := hold.size_lt
  have s2 := hnew.size_lt
  unfold Machine.diff
  rw [diff_of_agrees (keepsPositions hnew.arena.wf (by omega)) (fun ob nb ho hn => ⟨_, agrees_f64
    (small_tables hold hnew ho hn (by omega) h1 h2 hm)⟩) order horder hold hnew]
  cases e : Hotmeal.diff (Hash.node atom hasher) old new with
  | error e => rfl
  | ok ps =>
    simp only
    rw [C66_fits_u32 hold hnew (by omega) e]

/-- **C01**, partial (missing: the cases in which C01 and C31 fail, and hash collisions): for two documents with up
to `2^25` nodes together, in which the interned names of the old and the new body and the inputs of the hash function
do not collide, the machine computes patches that turn the old body into the new one in the library and, after they
have been sent, in a browser that shows the old body. -/
theorem C01_on_the_machine_partial (parse : Str → Document) (dom : WebDom) (atom : Str → UInt32)
    (hasher : List UInt8 → UInt64) (order : List Nat → List Nat)
    (horder : ∀ l, (order l).Perm l) (missing : NodeInfo UInt64) (hm : missing.props.length ≤ 2 ^ 50)
    (h : Comparable old new ob nb) (hs : old.arena.next + new.arena.next ≤ 2 ^ 25)
    (h1 : F64.FewAttrs old) (h2 : F64.FewAttrs new)
    (hatom : ∀ t ∈ Hash.names old ob, ∀ t' ∈ Hash.names new nb, atom t = atom t' → t = t')
    (hh : ∀ x ∈ Hash.inputs atom hasher (buildTree old ob) 0, ∀ y ∈ Hash.inputs atom hasher (diffable new) nb,
      hasher x = hasher y → x = y)
    (hq : OpaqueFixed (Hash.node atom hasher) old new ob nb)
    (hf : NoMoveBelowSelf (Hash.node atom hasher) old new ob nb ∨ NoInversion (Hash.node atom hasher) old new ob nb)
    (hp : new.NoEmptyPrefix) {N : QualName → Prop} (hN : PlainNames N) (ho : old.NamesIn N ob) (hn : new.NamesIn N nb)
    (hk : new.AllIn dom.KeepsTag dom.KeepsName nb)
    {E : Arena NodeData} {eb : Nat} (hE : E.WF) (heb : eb < E.next) (hEe : E.ElemBelow eb) (hEl : E.Lower)
    (hsame : (E.tree eb).unq = (old.arena.tree ob).unq) :
    ∃ ps old' E', Machine.diff atom hasher order missing old new = .ok ps ∧
      applyPatches parse old ps = .ok old' ∧ old'.toBodyHtml = new.toBodyHtml ∧
      dom.applyPatches eb E (ps.map Patch.wire) = .ok E' ∧ (E'.tree eb).inner = new.toBodyHtml := by
  have hnc := Hash.C70_no_collision ⟨h.old.sound, h.new.sound, h.old.body, h.new.body⟩ atom hasher hatom hh
  obtain ⟨ps, old', e1, e2, e3, _⟩ := C01_round_trip_partial parse h hnc hq hf
  obtain ⟨ps', E', e4, e5, e6⟩ := C31_browser_shows_new_partial dom h hnc hq hf hN ho hn hE heb hEe hEl
    (fun _ e => C31_names_from_new dom h hnc hq.agree hk e) hsame
  rw [e1] at e4
  cases e4
  refine ⟨ps, old', E', ?_, e2, e3, ?_, e6⟩
  · rw [C76_machine_is_diff atom hasher order horder missing hm h.old.sound h.new.sound hs h1 h2]; exact e1
  · rw [C45_patches_arrive_unchanged_partial old hp e1]; exact e5

/-! ## Cases that meet the hypotheses -/

theorem fewAttrs_of {D : Document} (h : ((List.range D.arena.next).all fun n => match (D.arena.data n).kind with
    | .element _ attrs => decide (attrs.length ≤ 5)
    | _ => true) = true) : F64.FewAttrs D := by
  intro n tag attrs hn e
  have := List.all_eq_true.1 h n (List.mem_range.2 hn)
  rw [e] at this
  exact Nat.le_trans (of_decide_eq_true this) (by omega)

/-- No element is moved below itself, as a test, with the hash `Hash.node inlineHash fnv`. -/
def movesSafe (cs ds : List Html) : Bool :=
  match Shadow.new (buildTree (.ofForest cs) 2) 0 with
  | .ok S => ancestorFree (diffable (.ofForest ds))
      (insertedNodes (script (Hash.node Hash.inlineHash Hash.fnv) (.ofForest cs) (.ofForest ds) 2 2))
      ⟨S, initBToShadow (diffMatching (oldTree (Hash.node Hash.inlineHash Hash.fnv) (.ofForest cs) 2)
        (newTree (Hash.node Hash.inlineHash Hash.fnv) (.ofForest ds) 2))⟩
      (script (Hash.node Hash.inlineHash Hash.fnv) (.ofForest cs) (.ofForest ds) 2 2)
  | .error _ => true

theorem noMoveBelowSelf_of {cs ds : List Html} (h : movesSafe cs ds = true) :
    NoMoveBelowSelf (Hash.node Hash.inlineHash Hash.fnv) (.ofForest cs) (.ofForest ds) 2 2 := by
  intro S hS
  unfold movesSafe at h
  rw [hS] at h
  exact h

/-- The two lists of `ex1` and `ex2`, hashed with FNV-1a. -/
example : Comparable (.ofForest ex1) (.ofForest ex2) 2 2 ∧
    (Document.ofForest ex1).arena.next + (Document.ofForest ex2).arena.next ≤ 2 ^ 25 ∧
    F64.FewAttrs (.ofForest ex1) ∧ F64.FewAttrs (.ofForest ex2) ∧
    (∀ t ∈ Hash.names (.ofForest ex1) 2, ∀ t' ∈ Hash.names (.ofForest ex2) 2,
      Hash.inlineHash t = Hash.inlineHash t' → t = t') ∧
    (∀ x ∈ Hash.inputs Hash.inlineHash Hash.fnv (buildTree (.ofForest ex1) 2) 0,
      ∀ y ∈ Hash.inputs Hash.inlineHash Hash.fnv (diffable (.ofForest ex2)) 2, Hash.fnv x = Hash.fnv y → x = y) ∧
    OpaqueFixed (Hash.node Hash.inlineHash Hash.fnv) (.ofForest ex1) (.ofForest ex2) 2 2 ∧
    NoMoveBelowSelf (Hash.node Hash.inlineHash Hash.fnv) (.ofForest ex1) (.ofForest ex2) 2 2 ∧
    (Document.ofForest ex2).NoEmptyPrefix ∧
    (Document.ofForest ex1).NamesIn bareName 2 ∧ (Document.ofForest ex2).NamesIn bareName 2 ∧
    (Document.ofForest ex2).AllIn WebDom.lenient.KeepsTag WebDom.lenient.KeepsName 2 ∧
    (match Hotmeal.diff (Hash.node Hash.inlineHash Hash.fnv) (.ofForest ex1) (.ofForest ex2) with
      | .ok ps => decide (ps.length = 11)
      | .error _ => false) = true := by
  have h1 := (ofForest_spec ex1 (by decide +kernel)).1.arena
  have h2 := (ofForest_spec ex2 (by decide +kernel)).1.arena
  refine ⟨comparable_ofForest (by decide +kernel) (by decide +kernel), ?_, fewAttrs_of (by decide +kernel),
    fewAttrs_of (by decide +kernel), by decide +kernel, by decide +kernel,
    opaqueFixed_ofForest (by decide +kernel) (by decide +kernel), noMoveBelowSelf_of (by decide +kernel), ?_,
    namesIn_of_bareB h1.wf (by decide +kernel) (by decide +kernel),
    namesIn_of_bareB h2.wf (by decide +kernel) (by decide +kernel),
    allIn_of_keptB h2.wf (by decide +kernel) (by decide +kernel), by decide +kernel⟩
  · have : (Document.ofForest ex1).arena.next + (Document.ofForest ex2).arena.next ≤ 100 := by decide +kernel
    exact Nat.le_trans this (by omega)
  · intro n tag attrs h
    by_cases hn : n < 20
    · have hall : ((List.range 20).all fun n => match ((Document.ofForest ex2).arena.data n).kind with
        | .element _ attrs => attrs.all fun kv => decide (kv.1.prefix_ ≠ some [])
        | _ => true) = true := by decide +kernel
      have := List.all_eq_true.1 hall n (List.mem_range.2 hn)
      rw [h] at this
      exact fun kv hkv => of_decide_eq_true (List.all_eq_true.1 this kv hkv)
    · obtain ⟨m, rfl⟩ : ∃ m, n = m + 20 := ⟨n - 20, by omega⟩
      cases h

end Machine
end Hotmeal
