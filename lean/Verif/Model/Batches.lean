import Verif.Model.Mount

set_option autoImplicit false

/-!
# Patch lists that are applied in pieces

Both appliers let the caller keep the slots of displaced nodes between calls: `init_patch_slots` and
`apply_patch_with_slots` (hotmeal/src/dom.rs), `Slots`, `apply_patches_with_slots` and `apply_patches_with_slots_on`
(hotmeal-wasm/src/lib.rs).
-/

namespace Hotmeal

/-- `apply_patch_with_slots`, dom.rs:484-490: the document and the slots it leaves behind, and its error. The slots are
stored after everything that returns an error (dom.rs:702-740), so a failing patch leaves them as they were. -/
def applyPatchWithSlots (parse : Str → Document) (D : Document) (slots : Slots) (p : Patch) :
    Document × Slots × Option Err :=
  match applyPatch parse D.arena slots p with
  | .ok (A, slots) => ({ D with arena := A }, slots, none)
  | .error e => ({ D with arena := errorArena D.arena slots p }, slots, some e)

/-- The loop of a caller that applies patches with `apply_patch_with_slots` (dom.rs:484-490), one after the other, and
stops at the first error, as in hotmeal/fuzz/fuzz_targets/common/patch_trace.rs:54-90. -/
def applyEach (parse : Str → Document) (D : Document) (slots : Slots) : List Patch → Document × Slots × Option Err
  | [] => (D, slots, none)
  | p :: ps => match applyPatchWithSlots parse D slots p with
    | (D, slots, none) => applyEach parse D slots ps
    | r => r

/-- `init_patch_slots` (dom.rs:476-481) followed by `applyEach`. -/
def applyOneByOne (parse : Str → Document) (D : Document) (ps : List Patch) : Document × Option Err :=
  let (D, slots) := initSlots D
  let (D, _, e) := applyEach parse D slots ps
  (D, e)

/-- Several calls of `apply_patches` (dom.rs:457-473), each with a list of its own, up to the first error. -/
def applyLists (parse : Str → Document) (D : Document) : List (List Patch) → Res Document
  | [] => .ok D
  | ps :: rest => do
    let D ← applyPatches parse D ps
    applyLists parse D rest

namespace Mount

/-- `apply_patches_with_slots_on`, lib.rs:161-170, and for the body `apply_patches_with_slots`, lib.rs:134-143: the
slots come from the caller, who keeps what they have become. The number of patches, which the code returns, is left
out. -/
def applyPatchesWithSlotsOn (dom : WebDom) (E : Arena NodeData) (doc : Nat) (sel : Target) (slots : Slots)
    (ps : List Patch) : Res (Arena NodeData × Slots) := do
  let root ← resolveMountPoint E doc sel
  dom.applyLoop root E slots ps

/-- Several calls of `apply_patches_with_slots_on` (lib.rs:161-170) with the same slots, up to the first error, as in
hotmeal/fuzz/browser-wasm/src/lib.rs:270 with one patch at a time. -/
def applyListsWithSlotsOn (dom : WebDom) (E : Arena NodeData) (doc : Nat) (sel : Target) (slots : Slots) :
    List (List Patch) → Res (Arena NodeData × Slots)
  | [] => .ok (E, slots)
  | ps :: rest => do
    let (E, slots) ← applyPatchesWithSlotsOn dom E doc sel slots ps
    applyListsWithSlotsOn dom E doc sel slots rest

/-- Several calls of `apply_patches_on` (lib.rs:155-158), each with a list of its own, up to the first error. -/
def applyListsOn (dom : WebDom) (E : Arena NodeData) (doc : Nat) (sel : Target) : List (List Patch) → Res (Arena NodeData)
  | [] => .ok E
  | ps :: rest => do
    let E ← applyPatchesOn dom E doc sel ps
    applyListsOn dom E doc sel rest

end Mount

/-- The slots of the browser client, lib.rs:74-76. -/
abbrev SlotVec := List (Option Nat)

namespace SlotVec

/-- `Slots::new`, lib.rs:79-81. -/
def new : SlotVec := []

/-- `Slots::store`, lib.rs:83-89. -/
def store (v : SlotVec) (slot n : Nat) : SlotVec :=
  (if v.length ≤ slot then v ++ List.replicate (slot + 1 - v.length) none else v).set slot (some n)

/-- `Slots::take`, lib.rs:91-98. -/
def take (v : SlotVec) (slot : Nat) : Option Nat × SlotVec :=
  if slot < v.length then (v[slot]?.getD none, v.set slot none) else (none, v)

/-- `Slots::get`, lib.rs:100-103. -/
def get (v : SlotVec) (slot : Nat) : Option Nat := v[slot]?.getD none

end SlotVec
end Hotmeal
