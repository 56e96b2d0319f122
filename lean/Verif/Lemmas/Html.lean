import Verif.Spec.Html
import Verif.Lemmas.Arena

/-!
# Serializing an arena is serializing its tree
-/

namespace Hotmeal

theorem serKind_ofKind (k : NodeKind) (cs : List Html) (raw : Bool) :
    serKind k (cs.map (fun c raw => c.ser raw)) raw = (Html.ofKind k cs).ser raw := by
  cases k with
  | document => simp [serKind, Html.ofKind, Html.ser]
  | text s => simp [serKind, Html.ofKind, Html.ser]
  | comment s => simp [serKind, Html.ofKind, Html.ser]
  | element tag attrs =>
    simp only [serKind, Html.ofKind, Html.ser, Html.serL_eq, List.map_map, List.flatMap]
    rfl

theorem serialize_eq (A : Arena NodeData) (n : Nat) (raw : Bool) :
    serialize A n raw = (A.tree n).ser raw := by
  have key : ∀ k m, A.foldF (fun n rs => serKind (A.data n).kind rs) k m =
      fun raw => (A.foldF (fun n cs => Html.ofKind (A.data n).kind cs) k m).ser raw := by
    intro k
    induction k with
    | zero =>
      intro m; funext raw
      exact serKind_ofKind _ [] raw
    | succ k ih =>
      intro m; funext raw
      simp only [Arena.foldF]
      rw [← serKind_ofKind, List.map_map]
      congr 1
      exact List.map_congr_left (fun c _ => ih c)
  unfold serialize Arena.tree Arena.fold
  rw [key]

theorem serializeInner_eq (A : Arena NodeData) (n : Nat) :
    serializeInner A n = Html.serL false (A.forest n) := by
  simp only [serializeInner, Arena.forest, Html.serL_eq, List.flatMap_map, serialize_eq]

theorem Arena.WF.tree_eq {A : Arena NodeData} (h : A.WF) (n : Nat) :
    A.tree n = Html.ofKind (A.data n).kind (A.forest n) := by
  unfold Arena.tree Arena.forest
  rw [h.fold_eq]
  rfl

theorem toBodyHtml_eq (D : Document) : D.toBodyHtml = Html.serL false D.bodyForest := by
  unfold Document.toBodyHtml Document.bodyForest
  cases D.body with
  | none => rfl
  | some b => exact serializeInner_eq D.arena b

theorem escText_nil : escText [] = [] := rfl

theorem Html.ser_of_isEmptyText {c : Html} (h : c.isEmptyText = true) (raw : Bool) :
    c.ser raw = [] := by
  cases c with
  | text s => cases s with
    | nil => cases raw <;> rfl
    | cons x xs => simp [Html.isEmptyText] at h
  | _ => simp [Html.isEmptyText] at h

mutual
theorem Html.ser_prune (t : Html) (raw : Bool) : t.prune.ser raw = t.ser raw := by
  cases t with
  | element tag attrs cs => simp only [Html.prune, Html.ser, Html.serL_pruneL cs]
  | _ => rfl
theorem Html.serL_pruneL (cs : List Html) (raw : Bool) :
    Html.serL raw (Html.pruneL cs) = Html.serL raw cs := by
  cases cs with
  | nil => rfl
  | cons c cs =>
    simp only [Html.pruneL, Html.serL]
    split
    · next h => rw [Html.ser_of_isEmptyText h]; exact Html.serL_pruneL cs raw
    · simp only [Html.serL]; rw [Html.ser_prune c, Html.serL_pruneL cs]
end

/-- The tree of a node depends only on the children and kinds of the nodes below it. -/
theorem Arena.tree_congr' {A B : Arena NodeData} (hA : A.WF) (hB : B.WF) (n : Nat) :
    (∀ m, A.Anc n m → B.children m = A.children m ∧ (B.data m).kind = (A.data m).kind) →
    B.tree n = A.tree n := by
  refine hA.induct_down (P := fun n => (∀ m, A.Anc n m → B.children m = A.children m ∧
    (B.data m).kind = (A.data m).kind) → B.tree n = A.tree n) ?_ n
  intro n ih h
  rw [hA.tree_eq, hB.tree_eq, (h n .refl).2]
  congr 1
  unfold Arena.forest
  rw [(h n .refl).1]
  apply List.map_congr_left
  intro c hc
  refine ih c hc fun m hm => h m ?_
  exact Anc.trans (.step ((hA.mem_iff _ _).1 hc) .refl) hm

theorem Arena.tree_congr {A B : Arena NodeData} (hA : A.WF) (hB : B.WF) (n : Nat)
    (h : ∀ m, A.Anc n m → B.children m = A.children m ∧ B.data m = A.data m) :
    B.tree n = A.tree n :=
  Arena.tree_congr' hA hB n fun m hm => ⟨(h m hm).1, by rw [(h m hm).2]⟩

end Hotmeal
