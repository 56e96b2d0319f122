import Verif.Model.Sink

/-!
# Names that the parser gives and asks for (hotmeal/src/dom.rs:985-1010 and 1343-1402)

The tree builder of `html5ever` creates an element with a qualified name, and later asks the sink for the name of a node
to decide where content belongs. `Verif/Model/Sink.lean` has `create_element` with the namespace already looked up; here
is the look-up and the way back.
-/

namespace Hotmeal

/-- `Namespace::url`, dom.rs:1003-1009. -/
def Ns.url : Ns → Str
  | .html => "http://www.w3.org/1999/xhtml".toList
  | .svg => "http://www.w3.org/2000/svg".toList
  | .mathml => "http://www.w3.org/1998/Math/MathML".toList

/-- `Namespace::from_url`, dom.rs:994-1001: what is not known is taken for HTML. -/
def Ns.fromUrl (url : Str) : Ns :=
  if url = "http://www.w3.org/1999/xhtml".toList then .html
  else if url = "http://www.w3.org/2000/svg".toList then .svg
  else if url = "http://www.w3.org/1998/Math/MathML".toList then .mathml
  else .html

namespace Sink

/-- `create_element`, dom.rs:1383-1402, with the name it is given. The values of the attributes are copied from the
input or owned, which makes no difference to them (see `Verif/Model/Memory.lean`). -/
def createNamed (S : Sink) (name : QualName) (attrs : Attrs) : Sink × Nat :=
  S.createElement name.loc (Ns.fromUrl name.ns) attrs

/-- `elem_name`, dom.rs:1355-1381. The macros `ns!(html)`, `ns!(svg)` and `ns!(mathml)` stand for the URLs. -/
def elemName (S : Sink) (n : Nat) : QualName :=
  match S.arena.data n with
  | ⟨.element tag _, .html⟩ => ⟨none, "http://www.w3.org/1999/xhtml".toList, tag⟩
  | ⟨.element tag _, .svg⟩ => ⟨none, "http://www.w3.org/2000/svg".toList, tag⟩
  | ⟨.element tag _, .mathml⟩ => ⟨none, "http://www.w3.org/1998/Math/MathML".toList, tag⟩
  | _ => ⟨none, "http://www.w3.org/1999/xhtml".toList, []⟩

end Sink
end Hotmeal
