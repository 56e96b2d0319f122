import Verif.Props.RoundTrip

set_option autoImplicit false
set_option linter.unusedSectionVars false

/-!
# C08, C09: the matching
-/

namespace Hotmeal

variable {H : Type} [DecidableEq H]

/-- **C08.** For any two trees, any configuration and any hashes: `get_a` and `get_b` are inverse to
each other and agree with the pair list, `contains_a`/`contains_b` say whether a partner exists, and
no node occurs in two pairs (so `len()` is the number of matched nodes on either side). -/
theorem C08_matching_one_to_one (TA TB : DiffTree H) (cfg : Config) :
    (∀ a b, (computeMatching TA TB cfg).getB a = some b ↔
      (computeMatching TA TB cfg).getA b = some a) ∧
    (∀ a b, (computeMatching TA TB cfg).getB a = some b ↔
      (a, b) ∈ (computeMatching TA TB cfg).pairs) ∧
    (∀ a, (computeMatching TA TB cfg).containsA a = true ↔
      ∃ b, (a, b) ∈ (computeMatching TA TB cfg).pairs) ∧
    (∀ b, (computeMatching TA TB cfg).containsB b = true ↔
      ∃ a, (a, b) ∈ (computeMatching TA TB cfg).pairs) ∧
    ((computeMatching TA TB cfg).pairs.map Prod.fst).Nodup ∧
    ((computeMatching TA TB cfg).pairs.map Prod.snd).Nodup := by
  have h := (closed_true TA TB).computeMatching cfg
  generalize computeMatching TA TB cfg = M at h
  refine ⟨fun a b => (h.getB a b).trans (h.getA a b).symm, h.getB, ?_, ?_, ?_, ?_⟩
  · intro a
    show (M.getB a).isSome = true ↔ _
    rw [Option.isSome_iff_exists]
    exact exists_congr fun b => h.getB a b
  · intro b
    show (M.getA b).isSome = true ↔ _
    rw [Option.isSome_iff_exists]
    exact exists_congr fun a => h.getA a b
  · rw [List.Nodup, List.pairwise_map]
    refine h.nodup.imp_of_mem ?_
    rintro ⟨a, b⟩ ⟨a', b'⟩ h1 h2 hne rfl
    have e1 := (h.getB _ _).2 h1
    rw [(h.getB _ _).2 h2] at e1
    cases e1
    exact hne rfl
  · rw [List.Nodup, List.pairwise_map]
    refine h.nodup.imp_of_mem ?_
    rintro ⟨a, b⟩ ⟨a', b'⟩ h1 h2 hne rfl
    have e1 := (h.getA _ _).2 h1
    rw [(h.getA _ _).2 h2] at e1
    cases e1
    exact hne rfl

/-- A case with several matched nodes and constant hashes, that is, with collisions everywhere. -/
example : 4 ≤ (computeMatching (oldTree (fun _ _ _ => ()) (.ofForest ex1) 2)
    (newTree (fun _ _ _ => ()) (.ofForest ex2) 2) Config.diff).pairs.length := by
  decide +kernel

/-- **C09.** Matched nodes are nodes of the two trees and have the same kind, if subtrees with equal
hashes have equal shapes. -/
theorem C09_same_kind (hashNode : HKind → Option Str → List H → H) (A B : Arena TData)
    (hA : A.WF) (hB : B.WF) (ra rb : Nat) (hc : NoCollisionFrom hashNode A ra B rb) (cfg : Config)
    (a b : Nat) (h : (a, b) ∈ (computeMatching (DiffTree.ofArena hashNode A ra)
      (DiffTree.ofArena hashNode B rb) cfg).pairs) :
    (A.data a).kind = (B.data b).kind ∧ A.Anc ra a ∧ B.Anc rb b :=
  have h := ((closed_kind hA hB hc).computeMatching cfg).rel a b h
  ⟨h.2.2, h.1, h.2.1⟩

/-- The same for the matching `diff` works with, which may contain a forced pair of roots. -/
theorem C09_same_kind_diff (hashNode : HKind → Option Str → List H → H) (A B : Arena TData)
    (hA : A.WF) (hB : B.WF) (ra rb : Nat) (hc : NoCollisionFrom hashNode A ra B rb)
    (a b : Nat) (h : (a, b) ∈ (diffMatching (DiffTree.ofArena hashNode A ra)
      (DiffTree.ofArena hashNode B rb)).pairs) :
    (A.data a).kind = (B.data b).kind := by
  have hg := (closed_kind hA hB hc).computeMatching Config.diff
  unfold diffMatching forceRoots at h
  split at h
  · next e =>
    rcases List.mem_append.1 h with h | h
    · exact (hg.rel a b h).2.2
    · simp only [List.mem_singleton, Prod.mk.injEq] at h
      rw [h.1, h.2]; exact e.1
  · exact (hg.rel a b h).2.2

/-- Without the assumption on hashes kinds may differ: with constant hashes a text is matched with an
element. -/
example : ∃ cs ds : List Html, ((computeMatching (oldTree (fun _ _ _ => ()) (.ofForest cs) 2)
    (newTree (fun _ _ _ => ()) (.ofForest ds) 2) Config.diff).pairs.any fun p =>
      decide (((buildTree (.ofForest cs) 2).data p.1).kind ≠ ((diffable (.ofForest ds)).data p.2).kind))
    = true := ⟨[.text "x".toList], [ex "b" [] []], by decide +kernel⟩

end Hotmeal
