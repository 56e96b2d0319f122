import Verif.Model.Dom

/-!
# The public editing API of `Document` (hotmeal/src/dom.rs:219-325)
-/

namespace Hotmeal
namespace Document

/-- A call of the editing API. Functions at dom.rs:222-296. -/
inductive ApiCall
  | createElement (tag : Str)
  | createText (s : Str)
  | createComment (s : Str)
  | appendChild (p c : Nat)
  | insertBefore (sib new : Nat)
  | insertAfter (sib new : Nat)
  | remove (n : Nat)
  | setAttr (n : Nat) (k : QualName) (v : Str)
  | removeAttr (n : Nat) (k : QualName)
  | setText (n : Nat) (s : Str)

/-- Replace the arena of a document. Stands for the `&mut self` of the functions at dom.rs:249-296. -/
def withArena (D : Document) (A : Arena NodeData) : Document := { D with arena := A }

/-- Effect of an editing call: `create_element` dom.rs:222, `create_text` 232, `create_comment`
241, `append_child` 249, `insert_before` 254, `insert_after` 259, `remove` 264, `set_attr` 269,
`remove_attr` 282, `set_text` 289. -/
def run (D : Document) : ApiCall → Res Document
  | .createElement tag => .ok (D.withArena (D.arena.newNode ⟨.element tag [], .html⟩).1)
  | .createText s => .ok (D.withArena (D.arena.newNode ⟨.text s, .html⟩).1)
  | .createComment s => .ok (D.withArena (D.arena.newNode ⟨.comment s, .html⟩).1)
  | .appendChild p c => do
    let A ← D.arena.append p c
    .ok (D.withArena A)
  | .insertBefore sib new => do
    let A ← D.arena.insertBefore sib new
    .ok (D.withArena A)
  | .insertAfter sib new => do
    let A ← D.arena.insertAfter sib new
    .ok (D.withArena A)
  | .remove n => .ok (D.withArena (D.arena.detach n))
  | .setAttr n k v => .ok (D.setAttr n k v)
  | .removeAttr n k => .ok (D.removeAttr n k)
  | .setText n s => .ok (D.setTextApi n s)

end Document
end Hotmeal
