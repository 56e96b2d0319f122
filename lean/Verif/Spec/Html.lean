import Verif.Model.Dom

/-!
# Specification: trees as values

An HTML tree as an inductive value, independent of arenas and node ids, and its serialization
written directly on that value. Namespaces are not part of the value (they are not serialized).
-/

namespace Hotmeal

/-- An HTML tree. -/
inductive Html
  | document
  | element (tag : Str) (attrs : Attrs) (children : List Html)
  | text (s : Str)
  | comment (s : Str)
  deriving Repr, Inhabited

namespace Html

/-- Induction over trees. -/
theorem ind {P : Html → Prop} (hd : P .document)
    (he : ∀ tag attrs cs, (∀ c ∈ cs, P c) → P (.element tag attrs cs))
    (ht : ∀ s, P (.text s)) (hc : ∀ s, P (.comment s)) : ∀ t, P t := by
  intro t
  exact Html.rec (motive_1 := P) (motive_2 := fun cs => ∀ c ∈ cs, P c)
    hd (fun tag attrs cs ih => he tag attrs cs ih) ht hc
    (by simp) (fun h t ih1 ih2 c hc => by
      rcases List.mem_cons.1 hc with rfl | h
      · exact ih1
      · exact ih2 c h) t

mutual
/-- Serialization of a tree. `raw`: the tree is a child of a script/style/noscript element. -/
def ser (raw : Bool) : Html → Str
  | .document => []
  | .text s => if raw then s else escText s
  | .comment s => "<!--".toList ++ s ++ "-->".toList
  | .element tag attrs cs =>
    '<' :: tag ++ serAttrs attrs ++ ['>'] ++
      (if isVoid tag then [] else serL (isRawText tag) cs ++ "</".toList ++ tag ++ ['>'])
/-- Serialization of a list of trees. -/
def serL (raw : Bool) : List Html → Str
  | [] => []
  | c :: cs => ser raw c ++ serL raw cs
end

/-- Is this an empty text node? -/
def isEmptyText : Html → Bool
  | .text [] => true
  | _ => false

mutual
/-- Remove every empty text node below the root of the tree. -/
def prune : Html → Html
  | .element tag attrs cs => .element tag attrs (pruneL cs)
  | .document => .document
  | .text s => .text s
  | .comment s => .comment s
/-- Remove the empty text nodes of a list of trees, at every depth. -/
def pruneL : List Html → List Html
  | [] => []
  | c :: cs => if c.isEmptyText then pruneL cs else prune c :: pruneL cs
end

theorem serL_eq (raw : Bool) (cs : List Html) : serL raw cs = cs.flatMap (ser raw) := by
  induction cs with
  | nil => rfl
  | cons c cs ih => simp [serL, ih]

theorem serL_append (raw : Bool) (cs ds : List Html) :
    serL raw (cs ++ ds) = serL raw cs ++ serL raw ds := by
  simp [serL_eq]

theorem pruneL_eq (cs : List Html) :
    pruneL cs = (cs.filter (fun c => !c.isEmptyText)).map prune := by
  induction cs with
  | nil => rfl
  | cons c cs ih =>
    simp only [pruneL, List.filter_cons]
    cases h : c.isEmptyText <;> simp [ih]

end Html

/-- One level of reading a tree out of an arena. -/
def Html.ofKind (k : NodeKind) (cs : List Html) : Html :=
  match k with
  | .document => .document
  | .element tag attrs => .element tag attrs cs
  | .text s => .text s
  | .comment s => .comment s

/-- The tree rooted at a node of an arena. -/
def Arena.tree (A : Arena NodeData) (n : Nat) : Html :=
  A.fold (fun n cs => Html.ofKind (A.data n).kind cs) n

/-- The trees of the children of a node. -/
def Arena.forest (A : Arena NodeData) (n : Nat) : List Html := (A.children n).map A.tree

/-- The content of the body of a document, as trees. -/
def Document.bodyForest (D : Document) : List Html :=
  match D.body with
  | none => []
  | some b => D.arena.forest b

end Hotmeal
