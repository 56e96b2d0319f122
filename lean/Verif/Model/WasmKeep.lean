import Verif.Model.Client

set_option autoImplicit false

/-!
# What a failing patch leaves behind in the page (hotmeal-wasm/src/lib.rs)

`apply_patches` of the client stops at the first error and undoes nothing. The live-reload client logs the error
(lib.rs:205-207) and waits for the next event. The other modules return the error; here is the page after it.
-/

namespace Hotmeal
namespace WebDom

variable (dom : WebDom)

/-- The loop over the changes of `UpdateProps` up to the first name that `setAttribute` rejects, lib.rs:585-598. -/
def updateLoopKeep (ns : Ns) (old : Attrs) : Attrs → List PropChange → Attrs
  | acc, [] => acc
  | acc, c :: cs => match c.name with
    | .text => updateLoopKeep ns old acc cs
    | .attr q => match dom.setAttribute ns (serName q) (match c.value with
        | some v => v
        | none => (Wasm.existing old (serName q)).getD []) acc with
      | .ok acc => updateLoopKeep ns old acc cs
      | .error _ => acc

/-- The page in which a failing `apply_patch` (lib.rs:387-669) leaves the page `A`. `UpdateProps` has already set the
text and removed all attributes, and has set the attributes before the rejected one, lib.rs:569-598. A `Move` has
already taken its node out, lib.rs:609-623, and has filled the gap before its target, lib.rs:711-714. The other
patches fail before they change anything in the page (`C73_inserts_fail_first`); nodes they have made and not
attached are not part of it. -/
def errorPage (root : Nat) (A : Arena NodeData) (slots : Slots) : Patch → Arena NodeData
  | .updateProps path changes => match Wasm.findNode root A slots path with
    | .error _ => A
    | .ok n =>
      let A := match changes.find? (fun c => decide (c.name = .text)) with
        | some ⟨_, some t⟩ => Wasm.setTextContent A n t
        | _ => A
      match A.data n with
      | ⟨.element tag attrs, ns⟩ =>
        A.setData n ⟨.element tag (dom.updateLoopKeep ns attrs (clearAttrs ns attrs) changes), ns⟩
      | _ => A
  | .move from_ to _ =>
    let taken : Res (Nat × Arena NodeData × Slots) := match from_ with
      | [s] => match slots s with
        | none => .error (.slotNotFound s)
        | some n => .ok (n, A, Arena.upd slots s none)
      | _ => do
        let n ← Wasm.findNode root A slots from_
        let A ← Wasm.replaceByEmpty A n
        .ok (n, A, slots)
    match taken with
    | .error _ => A
    | .ok (_, A, slots) => match Wasm.insertParent root A slots to with
      | .error _ => A
      | .ok (p, pos) => match (A.children p)[pos]? with
        | some _ => A
        | none => fillGaps A p (pos - (A.children p).length)
  | _ => A

/-- `apply_patches_with_slots_on_root`, lib.rs:347-373, with the page it leaves behind and the error it returns. -/
def applyKeep (root : Nat) (A : Arena NodeData) (slots : Slots) : List Patch → Arena NodeData × Option Err
  | [] => (A, none)
  | p :: ps => match dom.applyPatch root A slots p with
    | .ok (A, slots) => applyKeep root A slots ps
    | .error e => (dom.errorPage root A slots p, some e)

/-- `apply_patches`, lib.rs:127-141, with the page it leaves behind and the error it returns. -/
def applyPatchesKeep (root : Nat) (A : Arena NodeData) (ps : List Patch) : Arena NodeData × Option Err :=
  dom.applyKeep root A (fun _ => none) ps

end WebDom

/-- `on_event` and `handle_live_reload_event`, lib.rs:204-235: the page after an event, with an error only logged. -/
def Page.handleKeep (dom : WebDom) (fresh : Page) (p : Page) : Event → Page
  | .reload => fresh
  | .headChanged _ => fresh
  | .patches _ ps => { p with arena := (dom.applyPatchesKeep p.body p.arena (ps.map Patch.wire)).1 }

namespace Server

/-- As `liveStep`, with errors in the client logged: hotmeal-wasm/src/lib.rs:204-208. -/
def keepStep {E : Type} (dom : WebDom) (diffHtml : Str → Str → Except E (List Patch)) (load : Str → Page)
    (route : Str) (S : Server) (p : Page) (c : Call) : Server × Page :=
  let (S, ev) := S.run diffHtml c
  if c.route = some route then
    (S, match ev with
      | none => p
      | some e => Page.handleKeep dom (((S.html route).map load).getD p) p e)
  else (S, p)

/-- As `connRun`, with errors in the client logged: hotmeal-wasm/src/lib.rs:204-208 and 254-320. -/
def keepRun {E : Type} (dom : WebDom) (diffHtml : Str → Str → Except E (List Patch)) (load : Str → Page)
    (route : Str) (S : Server) (p : Page) : List (Bool × Call) → Server × Page
  | [] => (S, p)
  | (true, c) :: cs =>
    let (S, p) := S.keepStep dom diffHtml load route p c
    keepRun dom diffHtml load route S p cs
  | (false, c) :: cs => keepRun dom diffHtml load route (S.run diffHtml c).1 p cs

end Server
end Hotmeal
