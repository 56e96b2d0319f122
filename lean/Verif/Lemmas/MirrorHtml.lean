import Verif.Lemmas.DiffPlan
import Verif.Lemmas.Html

set_option autoImplicit false
set_option linter.unusedSectionVars false

/-!
# From mirrored trees to equal HTML, and from the conversion to `diff` and `apply_patches`
-/

namespace Hotmeal

open Arena

theorem Html.pruneL_append (cs ds : List Html) : pruneL (cs ++ ds) = pruneL cs ++ pruneL ds := by
  simp [pruneL_eq]

mutual
/-- Remove empty text nodes below the root of the tree and replace the content of opaque elements by
`φ` of it. -/
def Html.redact (φ : List Html → List Html) : Html → Html
  | .element tag attrs cs => .element tag attrs (if attrs.isOpaque then φ cs else redactL φ cs)
  | .document => .document
  | .text s => .text s
  | .comment s => .comment s
/-- The same for a list of trees, also removing the empty text nodes of the list. -/
def Html.redactL (φ : List Html → List Html) : List Html → List Html
  | [] => []
  | c :: cs => if c.isEmptyText then redactL φ cs else redact φ c :: redactL φ cs
end

/-- The trees without empty text nodes and without the content of opaque elements. -/
def Html.maskL : List Html → List Html := Html.redactL fun _ => []

theorem Html.redactL_eq (φ : List Html → List Html) (cs : List Html) :
    redactL φ cs = (cs.filter (fun c => !c.isEmptyText)).map (redact φ) := by
  induction cs with
  | nil => rfl
  | cons c cs ih =>
    simp only [redactL, List.filter_cons]
    cases h : c.isEmptyText <;> simp [ih]

theorem Html.redactL_append (φ : List Html → List Html) (cs ds : List Html) :
    redactL φ (cs ++ ds) = redactL φ cs ++ redactL φ ds := by
  simp [redactL_eq]

/-- Removing empty text nodes everywhere. -/
theorem Html.redact_prune (t : Html) : t.redact pruneL = t.prune := by
  induction t using Html.ind with
  | he tag attrs cs ih =>
    simp only [redact, prune]
    congr 1
    split
    · rfl
    · rw [redactL_eq, pruneL_eq]
      apply List.map_congr_left
      intro c hc
      exact ih c (List.mem_filter.1 hc).1
  | _ => rfl

theorem Html.redactL_prune (cs : List Html) : redactL pruneL cs = pruneL cs := by
  rw [redactL_eq, pruneL_eq]
  exact List.map_congr_left fun c _ => redact_prune c

theorem junk_forest {D : Arena NodeData} (hD : D.WF) {junk : List Nat}
    (h : ∀ j ∈ junk, (D.data j).kind = .text []) (φ : List Html → List Html) :
    Html.redactL φ (junk.map D.tree) = [] := by
  rw [Html.redactL_eq, List.map_eq_nil_iff, List.filter_eq_nil_iff]
  intro t ht
  obtain ⟨j, hj, rfl⟩ := List.mem_map.1 ht
  rw [hD.tree_eq, h j hj]
  simp [Html.ofKind, Html.isEmptyText]

theorem isOpaque_of_element {d : NodeData} {tag : Str} {attrs : Attrs}
    (h : d.kind = .element tag attrs) : (tdataOf d).props.isOpaque = attrs.isOpaque := by
  simp only [tdataOf, h]

/-- The content extracted for an inserted opaque element is its content. -/
theorem extractChildren_html {E : Document} (hE : E.arena.WF)
    (hnd : ∀ n p, E.arena.parent n = some p → (E.arena.data n).kind ≠ .document) (b : Nat) :
    InsertContent.htmlL (extractChildren (diffable E) (fun _ => false) b) = E.arena.forest b := by
  have hB : (diffable E).WF := Built.diffable_wf hE
  have key : ∀ n p, E.arena.parent n = some p →
      ∃ c, (diffable E).fold (extractAlg (diffable E) fun _ => false) n = some c ∧
        c.html = E.arena.tree n := by
    intro n
    refine hE.induct_down (P := fun n => ∀ p, E.arena.parent n = some p →
      ∃ c, (diffable E).fold (extractAlg (diffable E) fun _ => false) n = some c ∧
        c.html = E.arena.tree n) ?_ n
    intro n ih p hp
    rw [hB.fold_eq, hE.tree_eq, extractAlg]
    simp only [Bool.false_eq_true, if_false]
    refine ⟨_, rfl, ?_⟩
    have hd : (diffable E).data n = tdataOf (E.arena.data n) := rfl
    rw [hd]
    have h0 := hnd n p hp
    cases hk : (E.arena.data n).kind with
    | document => exact absurd hk h0
    | text s => simp only [tdataOf, hk]; rfl
    | comment s => simp only [tdataOf, hk]; rfl
    | element tag attrs =>
      simp only [tdataOf, hk, InsertContent.html, Html.ofKind]
      congr 1
      rw [InsertContent.htmlL_eq]
      show ((List.map _ (E.arena.children n)).filterMap id).map _ = (E.arena.children n).map _
      have : ∀ cs : List Nat, (∀ c ∈ cs, c ∈ E.arena.children n) →
          ((cs.map ((diffable E).fold (extractAlg (diffable E) fun _ => false))).filterMap id).map
            InsertContent.html = cs.map E.arena.tree := by
        intro cs
        induction cs with
        | nil => intro _; rfl
        | cons c cs ihc =>
          intro hcs
          obtain ⟨x, e1, e2⟩ := ih c (hcs c (by simp)) n ((hE.mem_iff _ _).1 (hcs c (by simp)))
          rw [List.map_cons, e1, List.filterMap_cons_some (f := id) (b := x) rfl, List.map_cons, e2,
            ihc fun d hd => hcs d (by simp [hd]), List.map_cons]
      exact this _ fun _ h => h
  unfold extractChildren Arena.forest
  rw [InsertContent.htmlL_eq]
  have : ∀ cs : List Nat, (∀ c ∈ cs, c ∈ E.arena.children b) →
      (cs.filterMap ((diffable E).fold (extractAlg (diffable E) fun _ => false))).map
        InsertContent.html = cs.map E.arena.tree := by
    intro cs
    induction cs with
    | nil => intro _; rfl
    | cons c cs ihc =>
      intro hcs
      obtain ⟨x, e1, e2⟩ := key c b ((hE.mem_iff _ _).1 (hcs c (by simp)))
      rw [List.filterMap_cons_some e1, List.map_cons, e2, ihc fun d hd => hcs d (by simp [hd])]
      rfl
  exact this _ fun _ h => h

mutual
/-- The contents of the outermost opaque elements of a tree, in document order. -/
def Html.islands : Html → List (List Html)
  | .element _ attrs cs => if attrs.isOpaque then [cs] else islandsL cs
  | .document => []
  | .text _ => []
  | .comment _ => []
/-- The same for a list of trees. -/
def Html.islandsL : List Html → List (List Html)
  | [] => []
  | c :: cs => islands c ++ islandsL cs
end

theorem Html.islandsL_append (cs ds : List Html) :
    islandsL (cs ++ ds) = islandsL cs ++ islandsL ds := by
  induction cs with
  | nil => rfl
  | cons c cs ih => simp [islandsL, ih]

theorem junk_islands {D : Arena NodeData} (hD : D.WF) {junk : List Nat}
    (h : ∀ j ∈ junk, (D.data j).kind = .text []) : Html.islandsL (junk.map D.tree) = [] := by
  induction junk with
  | nil => rfl
  | cons j js ih =>
    rw [List.map_cons, Html.islandsL, ih fun j hj => h j (by simp [hj]), hD.tree_eq, h j (by simp)]
    rfl

/-- The outermost opaque elements at or below a node, in document order. -/
def Document.outermost (E : Document) (n : Nat) : List Nat :=
  E.arena.fold (fun n cs =>
    if (tdataOf (E.arena.data n)).props.isOpaque then [n] else cs.flatMap id) n

theorem Document.outermost_eq {E : Document} (hE : E.arena.WF) (n : Nat) : E.outermost n =
    if (tdataOf (E.arena.data n)).props.isOpaque then [n]
    else (E.arena.children n).flatMap E.outermost := by
  unfold Document.outermost
  rw [hE.fold_eq, List.flatMap_map]
  rfl

theorem Document.outermost_opaque {E : Document} (hE : E.arena.WF) {n b : Nat}
    (hb : b ∈ E.outermost n) : (tdataOf (E.arena.data b)).props.isOpaque = true := by
  revert hb
  refine hE.induct_down (P := fun n => b ∈ E.outermost n →
    (tdataOf (E.arena.data b)).props.isOpaque = true) ?_ n
  intro n ih hb
  rw [Document.outermost_eq hE] at hb
  split at hb
  · next e => rw [List.mem_singleton.1 hb]; exact e
  · obtain ⟨c, hc, hb⟩ := List.mem_flatMap.1 hb
    exact ih c hc hb

namespace Mirror

variable {E : Document} {nb : Nat} {D : Arena NodeData} {db : Nat} {k0 : NodeKind} {g : Nat → Nat}
  {body : Nat → Option (List Html)} {φ : List Html → List Html}

theorem child_anc (hE : E.arena.WF) {b c : Nat} (hb : E.arena.Anc nb b)
    (hc : c ∈ E.arena.children b) : E.arena.Anc nb c ∧ c ≠ nb := by
  have hp := (hE.mem_iff _ _).1 hc
  refine ⟨.step hp hb, ?_⟩
  rintro rfl
  exact hE.self_parent_ne hp (hE.anc_antisymm (.step hp .refl) hb)

/-- What is known about the content of opaque elements. -/
structure Contents (E : Document) (nb : Nat) (body : Nat → Option (List Html))
    (φ : List Html → List Html) : Prop where
  none : ∀ b, E.arena.Anc nb b → ((diffable E).data b).props.isOpaque = false → body b = none
  some : ∀ b, E.arena.Anc nb b → ¬ InsideOpaque (diffable E) nb b →
    ((diffable E).data b).props.isOpaque = true →
    ∃ c, body b = some c ∧ φ c = φ (E.arena.forest b)

theorem tree (h : Mirror (diffable E) nb D db k0 body g) (hE : E.arena.WF)
    (hnd : ∀ b, E.arena.Anc nb b → (E.arena.data b).kind ≠ .document)
    (hφ : Contents E nb body φ) (b : Nat) :
    E.arena.Anc nb b → b ≠ nb → ¬ InsideOpaque (diffable E) nb b →
      (D.tree (g b)).redact φ = (E.arena.tree b).redact φ ∧
      (D.tree (g b)).isEmptyText = (E.arena.tree b).isEmptyText := by
  refine hE.induct_down (P := fun b => E.arena.Anc nb b → b ≠ nb →
      ¬ InsideOpaque (diffable E) nb b →
      (D.tree (g b)).redact φ = (E.arena.tree b).redact φ ∧
      (D.tree (g b)).isEmptyText = (E.arena.tree b).isEmptyText) ?_ b
  intro b ih hb hne hin
  rw [h.wf.tree_eq, hE.tree_eq, h.data b (diffable_anc hb) hin hne]
  have hk : kindOf ((diffable E).data b) = (E.arena.data b).kind := kindOf_tdataOf (hnd b hb)
  rw [hk]
  cases hkk : (E.arena.data b).kind with
  | document => exact absurd hkk (hnd b hb)
  | text s => exact ⟨rfl, rfl⟩
  | comment s => exact ⟨rfl, rfl⟩
  | element tag attrs =>
    refine ⟨?_, rfl⟩
    have hop : ((diffable E).data b).props.isOpaque = attrs.isOpaque := isOpaque_of_element hkk
    simp only [Html.ofKind, Html.redact]
    congr 1
    cases ho : attrs.isOpaque with
    | true =>
      rw [ho] at hop
      obtain ⟨c, h1, h2⟩ := hφ.some b hb hin hop
      rw [if_pos rfl, if_pos rfl]
      exact (congrArg φ (h.opq b c (diffable_anc hb) hin h1)).trans h2
    | false =>
      rw [ho] at hop
      rw [if_neg (by simp), if_neg (by simp)]
      obtain ⟨junk, hkids, hj⟩ := h.kids b (diffable_anc hb) hin (hφ.none b hb hop)
      unfold Arena.forest
      rw [hkids, List.map_append, Html.redactL_append, junk_forest h.wf hj, List.append_nil]
      show Html.redactL φ (((E.arena.children b).map g).map D.tree) = _
      have key : ∀ cs : List Nat, (∀ c ∈ cs, c ∈ E.arena.children b) →
          Html.redactL φ ((cs.map g).map D.tree) = Html.redactL φ (cs.map E.arena.tree) := by
        intro cs
        induction cs with
        | nil => intro _; rfl
        | cons c cs ihc =>
          intro hcs
          have hc := hcs c (by simp)
          obtain ⟨h1, h2⟩ := child_anc hE hb hc
          have hpc : (diffable E).parent c = Option.some b := (hE.mem_iff _ _).1 hc
          obtain ⟨e1, e2⟩ := ih c hc h1 h2 (by
            rw [InsideOpaque.parent_iff (Built.diffable_wf hE) hpc (diffable_anc hb), hop]
            simpa using hin)
          simp only [List.map_cons, Html.redactL, e1, e2,
            ihc (fun c hc => hcs c (List.mem_cons_of_mem _ hc))]
      exact key _ (fun _ hc => hc)

/-- The mirrored content is the new content up to empty text nodes and the content of opaque
elements. -/
theorem forest_redact (h : Mirror (diffable E) nb D db k0 body g) (hE : E.arena.WF)
    (hnd : ∀ b, E.arena.Anc nb b → (E.arena.data b).kind ≠ .document)
    (hφ : Contents E nb body φ) (ho : ((diffable E).data nb).props.isOpaque = false) :
    Html.redactL φ (D.forest db) = Html.redactL φ (E.arena.forest nb) := by
  have hin : ¬ InsideOpaque (diffable E) nb nb := InsideOpaque.not_root (Built.diffable_wf hE)
  obtain ⟨junk, hkids, hj⟩ := h.kids nb .refl hin (hφ.none nb .refl ho)
  unfold Arena.forest
  rw [h.root] at hkids
  rw [hkids, List.map_append, Html.redactL_append, junk_forest h.wf hj, List.append_nil]
  show Html.redactL φ (((E.arena.children nb).map g).map D.tree) = _
  have key : ∀ cs : List Nat, (∀ c ∈ cs, c ∈ E.arena.children nb) →
      Html.redactL φ ((cs.map g).map D.tree) = Html.redactL φ (cs.map E.arena.tree) := by
    intro cs
    induction cs with
    | nil => intro _; rfl
    | cons c cs ihc =>
      intro hcs
      have hc := hcs c (by simp)
      obtain ⟨h1, h2⟩ := child_anc hE .refl hc
      have hpc : (diffable E).parent c = Option.some nb := (hE.mem_iff _ _).1 hc
      obtain ⟨e1, e2⟩ := h.tree hE hnd hφ c h1 h2 (by
        rw [InsideOpaque.parent_iff (Built.diffable_wf hE) hpc .refl, ho]
        simpa using hin)
      simp only [List.map_cons, Html.redactL, e1, e2,
        ihc (fun c hc => hcs c (List.mem_cons_of_mem _ hc))]
  exact key _ (fun _ hc => hc)

/-- Whatever the opaque elements contain, everything else is the new content. -/
theorem forest_mask (h : Mirror (diffable E) nb D db k0 body g) (hE : E.arena.WF)
    (hnd : ∀ b, E.arena.Anc nb b → (E.arena.data b).kind ≠ .document)
    (hb : ∀ b, E.arena.Anc nb b → (body b = Option.none ↔
      ((diffable E).data b).props.isOpaque = false))
    (ho : ((diffable E).data nb).props.isOpaque = false) :
    Html.maskL (D.forest db) = Html.maskL (E.arena.forest nb) := by
  refine h.forest_redact hE hnd ⟨fun b h1 h2 => (hb b h1).2 h2, fun b h1 _ h2 => ?_⟩ ho
  cases e : body b with
  | none => rw [(hb b h1).1 e] at h2; cases h2
  | some c => exact ⟨c, rfl, rfl⟩

/-- If the opaque elements contain what they should, the mirrored content is the new content up to
empty text nodes. -/
theorem forest (h : Mirror (diffable E) nb D db k0 body g) (hE : E.arena.WF)
    (hnd : ∀ b, E.arena.Anc nb b → (E.arena.data b).kind ≠ .document)
    (hφ : Contents E nb body Html.pruneL)
    (ho : ((diffable E).data nb).props.isOpaque = false) :
    Html.pruneL (D.forest db) = Html.pruneL (E.arena.forest nb) := by
  rw [← Html.redactL_prune, ← Html.redactL_prune]
  exact h.forest_redact hE hnd hφ ho

theorem islands_tree (h : Mirror (diffable E) nb D db k0 body g) (hs : E.arena.Sound)
    (hnd : ∀ b, E.arena.Anc nb b → (E.arena.data b).kind ≠ .document)
    (hb : ∀ b, E.arena.Anc nb b → (body b = Option.none ↔
      ((diffable E).data b).props.isOpaque = false)) (b : Nat) :
    E.arena.Anc nb b → b ≠ nb → ¬ InsideOpaque (diffable E) nb b →
      (D.tree (g b)).islands = (E.outermost b).map fun b => (body b).getD [] := by
  have hE := hs.wf
  refine hE.induct_down (P := fun b => E.arena.Anc nb b → b ≠ nb →
      ¬ InsideOpaque (diffable E) nb b →
      (D.tree (g b)).islands = (E.outermost b).map fun b => (body b).getD []) ?_ b
  intro b ih hbb hne hin
  rw [h.wf.tree_eq, Document.outermost_eq hE, h.data b (diffable_anc hbb) hin hne]
  have hk : kindOf ((diffable E).data b) = (E.arena.data b).kind := kindOf_tdataOf (hnd b hbb)
  rw [hk]
  cases hop : ((diffable E).data b).props.isOpaque with
  | true =>
    have hop' : (tdataOf (E.arena.data b)).props.isOpaque = true := hop
    rw [if_pos hop', List.map_singleton]
    cases hkk : (E.arena.data b).kind with
    | element tag attrs =>
      have h1 : attrs.isOpaque = true := (isOpaque_of_element hkk).symm.trans hop
      simp only [Html.ofKind, Html.islands, if_pos h1]
      cases e : body b with
      | none => rw [(hb b hbb).1 e] at hop; cases hop
      | some c =>
        have := h.opq b c (diffable_anc hbb) hin e
        rw [show D.forest (g b) = c from this]; rfl
    | _ => simp only [tdataOf, hkk] at hop'; cases hop'
  | false =>
    have hop' : ¬ (tdataOf (E.arena.data b)).props.isOpaque = true := by
      rw [show (tdataOf (E.arena.data b)).props.isOpaque = false from hop]; simp
    rw [if_neg hop']
    have hkids : Html.islandsL (D.forest (g b)) =
        ((E.arena.children b).flatMap E.outermost).map fun b => (body b).getD [] := by
      obtain ⟨junk, hkids, hj⟩ := h.kids b (diffable_anc hbb) hin ((hb b hbb).2 hop)
      unfold Arena.forest
      rw [hkids, List.map_append, Html.islandsL_append, junk_islands h.wf hj, List.append_nil]
      show Html.islandsL (((E.arena.children b).map g).map D.tree) = _
      have key : ∀ cs : List Nat, (∀ c ∈ cs, c ∈ E.arena.children b) →
          Html.islandsL ((cs.map g).map D.tree) =
            (cs.flatMap E.outermost).map fun b => (body b).getD [] := by
        intro cs
        induction cs with
        | nil => intro _; rfl
        | cons c cs ihc =>
          intro hcs
          have hc := hcs c (by simp)
          obtain ⟨h1, h2⟩ := child_anc hE hbb hc
          have hpc : (diffable E).parent c = Option.some b := (hE.mem_iff _ _).1 hc
          have e1 := ih c hc h1 h2 (by
            rw [InsideOpaque.parent_iff (Built.diffable_wf hE) hpc (diffable_anc hbb), hop]
            simpa using hin)
          simp only [List.map_cons, Html.islandsL, List.flatMap_cons, List.map_append, e1,
            ihc (fun c hc => hcs c (List.mem_cons_of_mem _ hc))]
      exact key _ (fun _ hc => hc)
    cases hkk : (E.arena.data b).kind with
    | document => exact absurd hkk (hnd b hbb)
    | element tag attrs =>
      have h1 : attrs.isOpaque = false := (isOpaque_of_element hkk).symm.trans hop
      simp only [Html.ofKind, Html.islands, h1, Bool.false_eq_true, if_false]
      exact hkids
    | text s =>
      rw [hs.leaf b (.inl ⟨s, hkk⟩)]; rfl
    | comment s =>
      rw [hs.leaf b (.inr ⟨s, hkk⟩)]; rfl

/-- What the opaque elements contain. -/
theorem islands (h : Mirror (diffable E) nb D db k0 body g) (hs : E.arena.Sound)
    (hnd : ∀ b, E.arena.Anc nb b → (E.arena.data b).kind ≠ .document)
    (hb : ∀ b, E.arena.Anc nb b → (body b = Option.none ↔
      ((diffable E).data b).props.isOpaque = false))
    (ho : ((diffable E).data nb).props.isOpaque = false) :
    Html.islandsL (D.forest db) = (E.outermost nb).map fun b => (body b).getD [] := by
  have hE := hs.wf
  have hin : ¬ InsideOpaque (diffable E) nb nb := InsideOpaque.not_root (Built.diffable_wf hE)
  obtain ⟨junk, hkids, hj⟩ := h.kids nb .refl hin ((hb nb .refl).2 ho)
  have hop' : ¬ (tdataOf (E.arena.data nb)).props.isOpaque = true := by
    rw [show (tdataOf (E.arena.data nb)).props.isOpaque = false from ho]; simp
  rw [Document.outermost_eq hE, if_neg hop']
  rw [h.root] at hkids
  unfold Arena.forest
  rw [hkids, List.map_append, Html.islandsL_append, junk_islands h.wf hj, List.append_nil]
  show Html.islandsL (((E.arena.children nb).map g).map D.tree) = _
  have key : ∀ cs : List Nat, (∀ c ∈ cs, c ∈ E.arena.children nb) →
      Html.islandsL ((cs.map g).map D.tree) =
        (cs.flatMap E.outermost).map fun b => (body b).getD [] := by
    intro cs
    induction cs with
    | nil => intro _; rfl
    | cons c cs ihc =>
      intro hcs
      have hc := hcs c (by simp)
      obtain ⟨h1, h2⟩ := child_anc hE .refl hc
      have hpc : (diffable E).parent c = Option.some nb := (hE.mem_iff _ _).1 hc
      have e1 := h.islands_tree hs hnd hb c h1 h2 (by
        rw [InsideOpaque.parent_iff (Built.diffable_wf hE) hpc .refl, ho]
        simpa using hin)
      simp only [List.map_cons, Html.islandsL, List.flatMap_cons, List.map_append, e1,
        ihc (fun c hc => hcs c (List.mem_cons_of_mem _ hc))]
  exact key _ (fun _ hc => hc)

end Mirror

/-- The body element is found at the same place after patching. -/
theorem Framed.body_eq {D : Document} {b : Nat} {A : Arena NodeData} (h : Framed D.arena b A)
    (hw : D.arena.WF) (hb : D.body = some b)
    (hk : ∃ attrs, (A.data b).kind = .element "body".toList attrs) :
    ({ D with arena := A } : Document).body = some b := by
  obtain ⟨hm, _, _⟩ := Document.body_spec hb
  have hp := (hw.mem_iff _ _).1 hm
  have hroot : Outside D.arena b D.root := by
    refine ⟨(hw.lt_of_parent _ _ hp).2, fun ha => ?_⟩
    exact hw.self_parent_ne hp (hw.anc_antisymm (.step hp .refl) ha)
  have hch := (h.out _ hroot).2.1
  unfold Document.body at hb ⊢
  simp only
  rw [hch]
  have key : ∀ cs : List Nat, (∀ c ∈ cs, c ∈ D.arena.children D.root) →
      cs.find? (D.hasTag "body".toList) = some b →
      cs.find? (({ D with arena := A } : Document).hasTag "body".toList) = some b := by
    intro cs
    induction cs with
    | nil => intro _ h; cases h
    | cons c cs ih =>
      intro hcs hf
      by_cases e : c = b
      · subst e
        obtain ⟨attrs, hk⟩ := hk
        rw [List.find?_cons_of_pos]
        simp [Document.hasTag, hk]
      · have hcp := (hw.mem_iff _ _).1 (hcs c (by simp))
        have hout : Outside D.arena b c := by
          refine ⟨(hw.lt_of_parent _ _ hcp).1, fun ha => ?_⟩
          rcases ha.cases' with e' | ⟨q, hq, ha'⟩
          · exact e e'.symm
          · rw [hcp] at hq; cases hq
            exact hroot.2 ha'
        have hd := (h.out _ hout).2.2
        have e2 : ({ D with arena := A } : Document).hasTag "body".toList c =
            D.hasTag "body".toList c := by
          simp only [Document.hasTag, hd]
        rw [List.find?_cons] at hf ⊢
        rw [e2]
        cases hh : D.hasTag "body".toList c with
        | true => rw [hh] at hf; simp only [Option.some.injEq] at hf; exact absurd hf e
        | false =>
          rw [hh] at hf
          exact ih (fun c hc => hcs c (List.mem_cons_of_mem _ hc)) hf
  exact key _ (fun _ h => h) hb

variable {H : Type} [DecidableEq H]

/-- The edit script computed by `diff`. -/
def script (hashNode : HKind → Option Str → List H → H) (old new : Document) (ob nb : Nat) :
    List EditOp :=
  generateEditScript (oldTree hashNode old ob) (newTree hashNode new nb)
    (diffMatching (oldTree hashNode old ob) (newTree hashNode new nb))

/-- No Move of the edit script puts a node below itself, in the tree as it is when the Move is
converted. -/
def NoMoveBelowSelf (hashNode : HKind → Option Str → List H → H) (old new : Document)
    (ob nb : Nat) : Prop :=
  ∀ S, Shadow.new (buildTree old ob) 0 = .ok S →
    ancestorFree (diffable new) (insertedNodes (script hashNode old new ob nb))
      ⟨S, initBToShadow (diffMatching (oldTree hashNode old ob) (newTree hashNode new nb))⟩
      (script hashNode old new ob nb) = true

/-- The matching never turns an ancestor order around, even through chains of nodes: old and new
parent edges together have no cycle. -/
def NoInversion (hashNode : HKind → Option Str → List H → H) (old new : Document)
    (ob nb : Nat) : Prop :=
  Ranked (buildTree old ob) (diffable new) nb
    (diffMatching (oldTree hashNode old ob) (newTree hashNode new nb))

/-- A tree with all its data, as a value. -/
inductive Full
  | node (data : TData) (children : List Full)

/-- The subtree of a node with all its data. -/
def Arena.full (A : Arena TData) (n : Nat) : Full := A.fold (fun n cs => .node (A.data n) cs) n

theorem Arena.WF.full_eq {A : Arena TData} (h : A.WF) (n : Nat) :
    A.full n = .node (A.data n) ((A.children n).map A.full) := by
  unfold Arena.full
  rw [h.fold_eq]

theorem map_of_map {α β γ δ : Type} {f : α → γ} {g : β → γ} {f' : α → δ} {g' : β → δ} {l : List α}
    {m : List β} (h : l.map f = m.map g) (H : ∀ x ∈ l, ∀ y, f x = g y → f' x = g' y) :
    l.map f' = m.map g' := by
  induction l generalizing m with
  | nil =>
    cases m with
    | nil => rfl
    | cons y m => cases h
  | cons x l ih =>
    cases m with
    | nil => cases h
    | cons y m =>
      simp only [List.map_cons, List.cons.injEq] at h ⊢
      exact ⟨H x (by simp) y h.1, ih h.2 fun x hx => H x (by simp [hx])⟩

/-- The same subtree has the same hash. -/
theorem hash_of_full {hashNode : HKind → Option Str → List H → H} {A B : Arena TData} {ra rb : Nat}
    (hA : A.WF) (hB : B.WF) (a : Nat) : ∀ b, A.full a = B.full b →
    (DiffTree.ofArena hashNode A ra).hash a = (DiffTree.ofArena hashNode B rb).hash b := by
  refine hA.induct_down (P := fun a => ∀ b, A.full a = B.full b →
    (DiffTree.ofArena hashNode A ra).hash a = (DiffTree.ofArena hashNode B rb).hash b) ?_ a
  intro a ih b h
  rw [hA.full_eq, hB.full_eq] at h
  injection h with h1 h2
  show A.fold _ a = B.fold _ b
  rw [hA.fold_eq, hB.fold_eq, h1]
  congr 1
  exact map_of_map h2 ih

theorem tdataOf_kind_inj {d e : NodeData} (h : tdataOf d = tdataOf e) : d.kind = e.kind := by
  obtain ⟨k, ns⟩ := d
  obtain ⟨k', ns'⟩ := e
  cases k <;> cases k' <;> simp_all [tdataOf]

/-- Matched opaque elements have the same content in both documents. -/
def OpaqueSame (hashNode : HKind → Option Str → List H → H) (old new : Document)
    (ob nb : Nat) : Prop :=
  ∀ p ∈ (diffMatching (oldTree hashNode old ob) (newTree hashNode new nb)).pairs,
    ((diffable new).data p.2).props.isOpaque = true →
    ((buildTree old ob).children p.1).map (buildTree old ob).full =
      ((diffable new).children p.2).map (diffable new).full

/-- Matched nodes agree on being opaque, and matched opaque elements have the same content: the change
from the old to the new document leaves opaque elements alone, though it may add, move and remove
them and change their attributes. -/
structure OpaqueFixed (hashNode : HKind → Option Str → List H → H) (old new : Document)
    (ob nb : Nat) : Prop where
  agree : OpaqueAgree hashNode old new ob nb
  same : OpaqueSame hashNode old new ob nb

theorem Document.Clear.tdata {D : Document} {b n : Nat} (h : D.Clear b) (hn : D.arena.Anc b n) :
    (tdataOf (D.arena.data n)).props.isOpaque = false := by
  cases hk : (D.arena.data n).kind with
  | element tag attrs =>
    have : attrs.isOpaque = false := h n tag attrs hn hk
    simpa only [tdataOf, hk] using this
  | _ => simp only [tdataOf, hk]; rfl

/-- Documents without opaque elements. -/
theorem opaqueFixed_of_clear {hashNode : HKind → Option Str → List H → H} {old new : Document}
    {ob nb : Nat} (h : Comparable old new ob nb) (ho : old.Clear ob) (hn : new.Clear nb) :
    OpaqueFixed hashNode old new ob nb := by
  obtain ⟨g, hb⟩ := buildTree_spec old h.old.sound.arena.leafy ob
  have hpairs := (diffMatching_pairs (hashNode := hashNode) (ra := 0) (rb := nb) hb.wf
    (Built.diffable_wf h.new.sound.arena.wf)).2
  have hnew : ∀ p ∈ (diffMatching (oldTree hashNode old ob) (newTree hashNode new nb)).pairs,
      ((diffable new).data p.2).props.isOpaque = false := fun p hp =>
    hn.tdata (anc_of_diffable (hpairs p.1 p.2 hp).2)
  refine ⟨fun p hp => ?_, fun p hp e => ?_⟩
  · unfold AgreeOpaque
    rw [hnew p hp]
    have ha := (hpairs p.1 p.2 hp).1
    by_cases e : p.1 = 0
    · rw [e, hb.rdata]; rfl
    · have hlt : p.1 < (buildTree old ob).next := by
        rcases ha.cases' with e' | ⟨q, hq, _⟩
        · exact absurd e'.symm e
        · exact (hb.wf.lt_of_parent _ _ hq).1
      rw [hb.data _ hlt e]
      exact ho.tdata (hb.ganc h.old.sound.arena.wf ha)
  · rw [hnew p hp] at e; cases e

/-- Below `b`, exactly the elements with names in `P` are opaque, and they are empty. -/
def Document.Islands (P : Str → Ns → Prop) (D : Document) (b : Nat) : Prop :=
  ∀ n tag attrs, D.arena.Anc b n → (D.arena.data n).kind = .element tag attrs →
    (attrs.isOpaque = true ↔ P tag (D.arena.data n).ns) ∧
    (attrs.isOpaque = true → D.arena.children n = [])

/-- The kind is that of an element with a name in `P`. -/
def HKind.Named (P : Str → Ns → Prop) : HKind → Prop
  | .element tag ns => P tag ns
  | _ => False

theorem Document.Islands.tdata {P : Str → Ns → Prop} {D : Document} {b n : Nat} (h : D.Islands P b)
    (hn : D.arena.Anc b n) :
    (tdataOf (D.arena.data n)).props.isOpaque = true ↔ (tdataOf (D.arena.data n)).kind.Named P := by
  cases hk : (D.arena.data n).kind with
  | element tag attrs =>
    have := (h n tag attrs hn hk).1
    simpa only [tdataOf, hk, HKind.Named] using this
  | document => simp only [tdataOf, hk]; exact ⟨fun e => (by cases e), fun e => e.elim⟩
  | text s => simp only [tdataOf, hk]; exact ⟨fun e => (by cases e), fun e => e.elim⟩
  | comment s => simp only [tdataOf, hk]; exact ⟨fun e => (by cases e), fun e => e.elim⟩

/-- Documents whose opaque elements are empty and recognised by their names. -/
theorem opaqueFixed_of_islands {hashNode : HKind → Option Str → List H → H} {old new : Document}
    {ob nb : Nat} {P : Str → Ns → Prop}
    (h : Comparable old new ob nb)
    (hc : NoCollision hashNode (buildTree old ob) (diffable new) nb)
    (hbody : ∀ ns, ¬ P "body".toList ns)
    (ho : old.Islands P ob) (hn : new.Islands P nb) : OpaqueFixed hashNode old new ob nb := by
  obtain ⟨g, hb⟩ := buildTree_spec old h.old.sound.arena.leafy ob
  have hBw := Built.diffable_wf h.new.sound.arena.wf
  have hpairs := (diffMatching_pairs (hashNode := hashNode) (ra := 0) (rb := nb) hb.wf hBw).2
  have hkind := (diffMatching_good (hashNode := hashNode) hb.wf hBw hc (h.rootsApart hb)).1.rel
  have hlt : ∀ a, (buildTree old ob).Anc 0 a → a < (buildTree old ob).next := by
    intro a ha
    rcases ha.cases' with e | ⟨q, hq, _⟩
    · rw [← e]; exact hb.pos
    · exact (hb.wf.lt_of_parent _ _ hq).1
  have hnew : ∀ p ∈ (diffMatching (oldTree hashNode old ob) (newTree hashNode new nb)).pairs,
      (((diffable new).data p.2).props.isOpaque = true ↔
        ((diffable new).data p.2).kind.Named P) :=
    fun p hp => hn.tdata (anc_of_diffable (hpairs p.1 p.2 hp).2)
  have hold : ∀ p ∈ (diffMatching (oldTree hashNode old ob) (newTree hashNode new nb)).pairs,
      (((buildTree old ob).data p.1).props.isOpaque = true ↔
        ((buildTree old ob).data p.1).kind.Named P) := by
    intro p hp
    have ha := (hpairs p.1 p.2 hp).1
    by_cases e : p.1 = 0
    · obtain ⟨_, attrs, hk⟩ := Document.body_spec h.old.body
      rw [e, hb.rdata]
      simp only [bodyKind, hk]
      exact ⟨fun e => (by cases e), fun e => absurd e (hbody _)⟩
    · rw [hb.data _ (hlt _ ha) e]
      exact ho.tdata (hb.ganc h.old.sound.arena.wf ha)
  have hag : OpaqueAgree hashNode old new ob nb := by
    intro p hp
    unfold AgreeOpaque
    rw [Bool.eq_iff_iff, hold p hp, hnew p hp, (hkind p.1 p.2 hp).2.2]
  refine ⟨hag, fun p hp e => ?_⟩
  have ha := (hpairs p.1 p.2 hp).1
  have e1 : (diffable new).children p.2 = [] := by
    have hb2 := anc_of_diffable (hpairs p.1 p.2 hp).2
    cases hk : (new.arena.data p.2).kind with
    | element tag attrs =>
      exact (hn p.2 tag attrs hb2 hk).2 ((isOpaque_of_element hk).symm.trans e)
    | _ =>
      have : (tdataOf (new.arena.data p.2)).props.isOpaque = true := e
      simp only [tdataOf, hk] at this; cases this
  have e2 : (buildTree old ob).children p.1 = [] := by
    have e' : ((buildTree old ob).data p.1).props.isOpaque = true := (hag p hp).trans e
    by_cases h0 : p.1 = 0
    · rw [h0, hb.rdata] at e'; cases e'
    rw [hb.data _ (hlt _ ha) h0] at e'
    have hk2 := hb.kids p.1 (hlt _ ha)
    have : old.arena.children (g p.1) = [] := by
      cases hk : (old.arena.data (g p.1)).kind with
      | element tag attrs =>
        refine (ho (g p.1) tag attrs (hb.ganc h.old.sound.arena.wf ha) hk).2 ?_
        simpa only [tdataOf, hk] using e'
      | _ => simp only [tdataOf, hk] at e'; cases e'
    rw [this] at hk2
    exact List.map_eq_nil_iff.1 hk2.symm
  rw [e1, e2]; rfl

/-- The reports of changed opaque content at the end of the patch list. -/
def reports (hashNode : HKind → Option Str → List H → H) (old new : Document) (ob nb : Nat)
    (S : Shadow) : List Patch :=
  (opaqueChanges (oldTree hashNode old ob) (newTree hashNode new nb) new.arena
    (diffMatching (oldTree hashNode old ob) (newTree hashNode new nb))).map
      fun c => .opaqueChanged (S.computePath c.1) c.2

/-- A patch reporting changed opaque content. -/
def Patch.isReport : Patch → Bool
  | .opaqueChanged _ _ => true
  | _ => false

theorem reports_isReport {hashNode : HKind → Option Str → List H → H} {old new : Document} {ob nb : Nat}
    (S : Shadow) :
    ∀ P ∈ reports hashNode old new ob nb S, P.isReport = true := by
  intro P hP
  obtain ⟨c, _, rfl⟩ := List.mem_map.1 hP
  rfl

/-- The old document has no surplus nodes. -/
theorem Built.not_surplus {old : Document} {ob : Nat} {T B : Arena TData} {f : Nat → Nat}
    (hb : Built old ob T f) (M : Matching) :
    ∀ n, ¬ Surplus (Plan.ctx T B M old.arena f) old.arena f n := by
  rintro n ⟨a, ⟨⟨h1, h1'⟩, h1''⟩, h2, h3⟩
  rw [hb.kids a h1] at h2
  obtain ⟨c, hcm, rfl⟩ := List.mem_map.1 h2
  have hpc := (hb.wf.mem_iff _ _).1 hcm
  refine h3 c ⟨(hb.wf.lt_of_parent _ _ hpc).1, ?_⟩ rfl
  rw [InsideOpaque.parent_iff hb.wf hpc (hb.reach a h1), h1'']
  simpa using h1'

namespace Comparable

variable {old new : Document} {ob nb : Nat} {hashNode : HKind → Option Str → List H → H}

/-- `diff` succeeds and each of its patches, up to the final reports, applies, with any lawful applier
to any document that corresponds to the old tree. -/
theorem run (h : Comparable old new ob nb)
    (hc : NoCollision hashNode (buildTree old ob) (diffable new) nb)
    (ho : OpaqueAgree hashNode old new ob nb)
    (hf : NoMoveBelowSelf hashNode old new ob nb ∨ NoInversion hashNode old new ob nb)
    {step : StepFn} {D : Arena NodeData} {db : Nat} (hL : Lawful db step) {f : Nat → Nat}
    (hd : DocRel (buildTree old ob) D db f) {slots : Slots} (hs : slots 0 = some db) :
    ∃ S0 ps w g, Shadow.new (buildTree old ob) 0 = .ok S0 ∧
      diff hashNode old new = .ok (ps ++ reports hashNode old new ob nb S0) ∧
      Trace (diffable new) (insertedNodes (script hashNode old new ob nb)) step f
        (Surplus (Plan.ctx (buildTree old ob) (diffable new)
          (diffMatching (oldTree hashNode old ob) (newTree hashNode new nb)) D f) D f)
        ⟨⟨S0, initBToShadow (diffMatching (oldTree hashNode old ob) (newTree hashNode new nb))⟩, D,
          slots, fun b => ((diffMatching (oldTree hashNode old ob)
            (newTree hashNode new nb)).getA b).map f⟩ (script hashNode old new ob nb) ps w ∧
      (∀ b, new.arena.Anc nb b → ¬ InsideOpaque (diffable new) nb b → w.c b = some (g b)) ∧
      Mirror (diffable new) nb w.D db
        (Plan.rootKind (D.data db).kind ((diffable new).data nb).props)
        (Plan.bodyOf (diffable new)
          (diffMatching (oldTree hashNode old ob) (newTree hashNode new nb)) D f) g ∧
      Framed D db w.D := by
  obtain ⟨g0, hb⟩ := buildTree_spec old h.old.sound.arena.leafy ob
  have hp := h.plan hashNode hc ho hb
  obtain ⟨S0, hS0, _⟩ := Shadow.new_init hb.wf hb.pos hb.root
  obtain ⟨ps, w, g, ht, hg, hm, hfr⟩ := hp.run (hashNode := hashNode) hL hd hs rfl hS0
    (hf.imp (fun hf => hf S0 hS0) id)
  refine ⟨S0, ps, w, g, hS0, ?_, ht, fun b hb => hg b (diffable_anc hb), hm, hfr⟩
  unfold diff
  rw [h.old.body, h.new.body]
  simp only
  rw [if_neg]
  · have hconv : convertOps (script hashNode old new ob nb) (buildTree old ob) 0 (diffable new)
        (diffMatching (oldTree hashNode old ob) (newTree hashNode new nb)) = .ok ps := by
      have hcv : convertLoop (diffable new) (insertedNodes (script hashNode old new ob nb))
          ⟨S0, initBToShadow (diffMatching (oldTree hashNode old ob) (newTree hashNode new nb))⟩
          (script hashNode old new ob nb) = .ok (w.C, ps) := ht.convert
      unfold convertOps
      simp only [hS0, bind, Except.bind, hcv]
    have hopq : opaquePatches (buildTree old ob) 0
        (opaqueChanges (oldTree hashNode old ob) (newTree hashNode new nb) new.arena
          (diffMatching (oldTree hashNode old ob) (newTree hashNode new nb))) =
        .ok (reports hashNode old new ob nb S0) := by
      unfold opaquePatches reports
      split
      · next e => rw [List.isEmpty_iff.1 e]; rfl
      · rw [hS0]; rfl
    simp only [bind, Except.bind]
    unfold script at hconv
    rw [hconv]
    simp only
    rw [hopq]
  · rw [List.any_eq_true]
    rintro ⟨n, hn, hk⟩
    have hn' := (h.new.sound.arena.wf.mem_descendants _ _).1 hn
    exact not_document new h.new hn' (by simpa using hk)

/-- No reports if matched opaque elements have the same content. -/
theorem reports_nil (h : Comparable old new ob nb)
    (hc : NoCollision hashNode (buildTree old ob) (diffable new) nb)
    (ho : OpaqueAgree hashNode old new ob nb) (hs : OpaqueSame hashNode old new ob nb)
    (S : Shadow) : reports hashNode old new ob nb S = [] := by
  obtain ⟨g0, hb⟩ := buildTree_spec old h.old.sound.arena.leafy ob
  have hp := h.plan hashNode hc ho hb
  unfold reports
  rw [List.map_eq_nil_iff]
  unfold opaqueChanges
  rw [List.filterMap_eq_nil_iff]
  rintro ⟨a, b⟩ hab
  simp only
  split
  · rfl
  · next e =>
    have e : ((diffable new).data b).props.isOpaque = true := by
      have : (!((diffable new).data b).props.isOpaque) ≠ true := e
      simpa using this
    rw [if_pos]
    have hch := hs (a, b) hab e
    have ha0 : a ≠ 0 := by
      rintro rfl
      have := hp.opq 0 b hab
      rw [hp.rootProps, e] at this
      cases this
    have hk := hp.kind a b hab
    have hta := hp.at_ a (hp.lt a b hab).1
    show (buildTree old ob).fold _ a = (diffable new).fold _ b
    rw [hp.aw.fold_eq, hp.bw.fold_eq, hk]
    have htext : ((buildTree old ob).data a).text = ((diffable new).data b).text := by
      have hlt := (hp.lt a b hab).1
      rw [hb.data a hlt ha0] at hk ⊢
      have eb : (diffable new).data b = tdataOf (new.arena.data b) := rfl
      rw [eb] at hk e ⊢
      cases hkb : (new.arena.data b).kind with
      | element tag attrs =>
        have e1 : (tdataOf (new.arena.data b)).kind = .element tag (new.arena.data b).ns := by
          simp only [tdataOf, hkb]
        obtain ⟨attrs', e2⟩ := tdataOf_kind_element (hk.trans e1)
        rw [e2]
        simp only [tdataOf, hkb]
      | _ => simp only [tdataOf, hkb] at e; cases e
    rw [htext]
    congr 1
    exact map_of_map hch fun x _ y h => hash_of_full (hashNode := hashNode) (ra := 0) (rb := nb)
      hp.aw hp.bw x y h

theorem bodyOf_none_iff {M : Matching} {D : Arena NodeData} {f : Nat → Nat} (b : Nat) :
    Plan.bodyOf (diffable new) M D f b = none ↔ ((diffable new).data b).props.isOpaque = false := by
  unfold Plan.bodyOf
  split
  · next e => rw [e]; split <;> simp
  · next e => simpa using e

/-- Matched opaque elements have equal content if nothing changed in them. -/
theorem same_forest (h : Comparable old new ob nb)
    (hc : NoCollision hashNode (buildTree old ob) (diffable new) nb)
    (ho : OpaqueAgree hashNode old new ob nb) (hs : OpaqueSame hashNode old new ob nb)
    {f : Nat → Nat} (hb : Built old ob (buildTree old ob) f) {a b : Nat}
    (hab : (a, b) ∈ (diffMatching (oldTree hashNode old ob) (newTree hashNode new nb)).pairs)
    (e : ((diffable new).data b).props.isOpaque = true) :
    old.arena.forest (f a) = new.arena.forest b := by
  have hp := h.plan hashNode hc ho hb
  have hlt := (hp.lt a b hab).1
  have hch := hs (a, b) hab e
  have hwo := h.old.sound.arena.wf
  have hwn := h.new.sound.arena.wf
  have key : ∀ x, x < (buildTree old ob).next → x ≠ 0 → ∀ y,
      (buildTree old ob).full x = (diffable new).full y →
      old.arena.tree (f x) = new.arena.tree y := by
    intro x
    refine hp.aw.induct_down (P := fun x => x < (buildTree old ob).next → x ≠ 0 → ∀ y,
      (buildTree old ob).full x = (diffable new).full y →
      old.arena.tree (f x) = new.arena.tree y) ?_ x
    intro x ih hx h0 y hxy
    rw [hp.aw.full_eq, hp.bw.full_eq] at hxy
    injection hxy with h1 h2
    rw [hb.data x hx h0] at h1
    rw [hwo.tree_eq, hwn.tree_eq, tdataOf_kind_inj h1]
    congr 1
    unfold Arena.forest
    rw [hb.kids x hx, List.map_map]
    refine map_of_map h2 fun z hz y' hy' => ih z hz ?_ ?_ y' hy'
    · exact (hp.aw.lt_of_parent _ _ ((hp.aw.mem_iff _ _).1 hz)).1
    · rintro rfl
      have := (hp.aw.mem_iff _ _).1 hz
      rw [hp.a0] at this; cases this
  unfold Arena.forest
  rw [hb.kids a hlt, List.map_map]
  refine map_of_map hch fun z hz y' hy' => key z ?_ ?_ y' hy'
  · exact (hp.aw.lt_of_parent _ _ ((hp.aw.mem_iff _ _).1 hz)).1
  · rintro rfl
    have := (hp.aw.mem_iff _ _).1 hz
    rw [hp.a0] at this; cases this

/-- The content of the opaque elements after applying the patches to a document. -/
theorem contents_of (h : Comparable old new ob nb)
    (hc : NoCollision hashNode (buildTree old ob) (diffable new) nb)
    (ho : OpaqueAgree hashNode old new ob nb) {D : Arena NodeData} {f : Nat → Nat}
    {φ : List Html → List Html}
    (hφ : ∀ a b, (a, b) ∈ (diffMatching (oldTree hashNode old ob) (newTree hashNode new nb)).pairs →
      ((diffable new).data b).props.isOpaque = true → φ (D.forest (f a)) = φ (new.arena.forest b)) :
    Mirror.Contents new nb (Plan.bodyOf (diffable new)
      (diffMatching (oldTree hashNode old ob) (newTree hashNode new nb)) D f) φ := by
  obtain ⟨g0, hb⟩ := buildTree_spec old h.old.sound.arena.leafy ob
  have hp := h.plan hashNode hc ho hb
  refine ⟨fun b _ e => (bodyOf_none_iff b).2 e, fun b hbb hin e => ?_⟩
  unfold Plan.bodyOf
  rw [if_pos e]
  cases hg : (diffMatching (oldTree hashNode old ob) (newTree hashNode new nb)).getA b with
  | none =>
    refine ⟨_, rfl, ?_⟩
    rw [extractChildren_html h.new.sound.arena.wf h.new.sound.arena.nodoc]
  | some a => exact ⟨_, rfl, hφ a b ((hp.getA a b).1 hg) e⟩

/-- The content of the opaque elements after applying the patches to the old document. -/
theorem contents (h : Comparable old new ob nb)
    (hc : NoCollision hashNode (buildTree old ob) (diffable new) nb)
    (ho : OpaqueAgree hashNode old new ob nb) (hs : OpaqueSame hashNode old new ob nb)
    {f : Nat → Nat} (hb : Built old ob (buildTree old ob) f) :
    Mirror.Contents new nb (Plan.bodyOf (diffable new)
      (diffMatching (oldTree hashNode old ob) (newTree hashNode new nb)) old.arena f)
      Html.pruneL :=
  h.contents_of hc ho fun _ _ hab e => congrArg _ (h.same_forest hc ho hs hb hab e)

end Comparable
end Hotmeal
