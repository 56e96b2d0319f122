import Verif.Lemmas.Provenance
import Verif.Lemmas.Traverse
import Verif.Lemmas.Loop

set_option autoImplicit false
set_option linter.unusedSectionVars false

/-!
# How much a diff sends
-/

namespace Hotmeal

mutual
/-- The nodes of a content, from top to bottom. -/
def InsertContent.nodes : InsertContent → List NodeKind
  | .element tag attrs cs => .element tag attrs :: InsertContent.nodesL cs
  | .text s => [.text s]
  | .comment s => [.comment s]
/-- The nodes of a list of contents. -/
def InsertContent.nodesL : List InsertContent → List NodeKind
  | [] => []
  | c :: cs => InsertContent.nodes c ++ InsertContent.nodesL cs
end

/-- The nodes that a patch creates. -/
def Patch.nodes : Patch → List NodeKind
  | .insertElement _ tag attrs cs _ => .element tag attrs :: InsertContent.nodesL cs
  | .insertText _ s _ => [.text s]
  | .insertComment _ s _ => [.comment s]
  | _ => []

/-- The kinds of patches. -/
inductive PatchSort
  | insert | remove | text | attribute | props | move | opaque
  deriving DecidableEq

/-- The kind of a patch. -/
def Patch.sort : Patch → PatchSort
  | .insertElement .. => .insert
  | .insertText .. => .insert
  | .insertComment .. => .insert
  | .remove _ => .remove
  | .setText .. => .text
  | .setAttribute .. => .attribute
  | .removeAttribute .. => .attribute
  | .move .. => .move
  | .updateProps .. => .props
  | .opaqueChanged .. => .opaque

/-- The kind of the patch that an operation of the edit script becomes. -/
def EditOp.sort : EditOp → PatchSort
  | .updateProps .. => .props
  | .setText .. => .text
  | .insert .. => .insert
  | .move .. => .move
  | .delete _ => .remove

/-- How many patches of a kind there are. -/
def countSort (k : PatchSort) (ps : List Patch) : Nat := ps.countP fun P => decide (P.sort = k)

theorem countSort_append (k : PatchSort) (ps qs : List Patch) :
    countSort k (ps ++ qs) = countSort k ps + countSort k qs := List.countP_append

theorem InsertContent.nodesL_eq (cs : List InsertContent) : nodesL cs = cs.flatMap nodes := by
  induction cs with
  | nil => rfl
  | cons c cs ih => rw [nodesL, List.flatMap_cons, ih]

/-! ### Which nodes are copied -/

/-- The nodes below `n` that are copied with it. -/
def copied {α : Type} (B : Arena α) (skip : Nat → Bool) (n : Nat) : List Nat :=
  B.fold (fun n rs => if skip n then [] else n :: rs.flatten) n

theorem copied_eq {α : Type} {B : Arena α} (hB : B.WF) (skip : Nat → Bool) (n : Nat) :
    copied B skip n = if skip n then [] else n :: (B.children n).flatMap (copied B skip) := by
  unfold copied
  rw [hB.fold_eq, List.flatMap_def]

theorem flatMap_sublist {α β : Type} {f g : α → List β} {l : List α} (h : ∀ x ∈ l, (f x).Sublist (g x)) :
    (l.flatMap f).Sublist (l.flatMap g) := by
  induction l with
  | nil => exact .slnil
  | cons x l ih =>
    rw [List.flatMap_cons, List.flatMap_cons]
    exact (h x (by simp)).append (ih fun y hy => h y (by simp [hy]))

theorem copied_sublist {α : Type} {B : Arena α} (hB : B.WF) (skip : Nat → Bool) (n : Nat) :
    (copied B skip n).Sublist (B.descendants n) := by
  refine hB.induct_down (P := fun n => (copied B skip n).Sublist (B.descendants n)) ?_ n
  intro n ih
  rw [copied_eq hB, hB.descendants_flatMap]
  split
  · exact List.nil_sublist _
  · exact (flatMap_sublist ih).cons_cons n

theorem below_sublist {α : Type} {B : Arena α} (hB : B.WF) (skip : Nat → Bool) (n : Nat) :
    (n :: (B.children n).flatMap (copied B skip)).Sublist (B.descendants n) := by
  rw [hB.descendants_flatMap]
  exact (flatMap_sublist fun c _ => copied_sublist hB skip c).cons_cons n

/-- `b` is the closest node of `ins` above `n`, or `n` itself. -/
inductive Near {α : Type} (B : Arena α) (ins : List Nat) (b : Nat) : Nat → Prop
  | refl : Near B ins b b
  | step {n p : Nat} (hp : B.parent n = some p) (hn : n ∉ ins) (h : Near B ins b p) : Near B ins b n

theorem Near.unique {α : Type} {B : Arena α} {ins : List Nat} {b b' n : Nat} (hb : b ∈ ins) (hb' : b' ∈ ins)
    (h : Near B ins b n) (h' : Near B ins b' n) : b = b' := by
  induction h with
  | refl =>
    cases h' with
    | refl => rfl
    | step _ hn _ => exact absurd hb hn
  | step hp hn _ ih =>
    cases h' with
    | refl => exact absurd hb' hn
    | step hp' _ h1 => rw [hp] at hp'; cases hp'; exact ih h1

theorem copied_near {α : Type} {B : Arena α} (hB : B.WF) {ins : List Nat} {skip : Nat → Bool}
    (hs : ∀ c ∈ ins, skip c = true) {b : Nat} (n : Nat) : ∀ p, B.parent n = some p → Near B ins b p →
      ∀ x ∈ copied B skip n, Near B ins b x := by
  refine hB.induct_down (P := fun n => ∀ p, B.parent n = some p → Near B ins b p →
      ∀ x ∈ copied B skip n, Near B ins b x) ?_ n
  intro n ih p hp h x hx
  rw [copied_eq hB] at hx
  split at hx
  · cases hx
  · next hk =>
    have hn : Near B ins b n := .step hp (fun hn => hk (hs n hn)) h
    rcases List.mem_cons.1 hx with rfl | hx
    · exact hn
    · obtain ⟨c, hc, hx⟩ := List.mem_flatMap.1 hx
      exact ih c hc n ((hB.mem_iff _ _).1 hc) hn x hx

/-- The nodes sent with the insertions of the nodes `bs`. -/
inductive Sent {α : Type} (B : Arena α) (ins : List Nat) : List Nat → List Nat → Prop
  | nil : Sent B ins [] []
  | cons {b : Nat} {bs ns : List Nat} (skip : Nat → Bool) (hs : ∀ c ∈ ins, skip c = true)
      (h : Sent B ins bs ns) : Sent B ins (b :: bs) ((b :: (B.children b).flatMap (copied B skip)) ++ ns)

theorem Sent.spec {α : Type} {B : Arena α} (hB : B.WF) {ins bs ns : List Nat} (h : Sent B ins bs ns)
    (hnd : bs.Nodup) (hi : ∀ b ∈ bs, b ∈ ins) :
    ns.Nodup ∧ ∀ n ∈ ns, ∃ b ∈ bs, Near B ins b n ∧ B.Anc b n := by
  induction h with
  | nil => exact ⟨List.nodup_nil, by simp⟩
  | @cons b bs ns skip hs h ih =>
    rw [List.nodup_cons] at hnd
    obtain ⟨h1, h2⟩ := ih hnd.2 fun b hb => hi b (by simp [hb])
    have h3 : ∀ n ∈ b :: (B.children b).flatMap (copied B skip), Near B ins b n := by
      intro n hn
      rcases List.mem_cons.1 hn with rfl | hn
      · exact .refl
      · obtain ⟨c, hc, hn⟩ := List.mem_flatMap.1 hn
        exact copied_near hB hs c b ((hB.mem_iff _ _).1 hc) .refl n hn
    constructor
    · rw [List.nodup_append]
      refine ⟨(below_sublist hB skip b).nodup (hB.descendants_nodup b), h1, ?_⟩
      rintro x hx y hy rfl
      obtain ⟨b', hb', hn, _⟩ := h2 x hy
      have := Near.unique (hi b (by simp)) (hi b' (by simp [hb'])) (h3 x hx) hn
      exact hnd.1 (this ▸ hb')
    · intro n hn
      rcases List.mem_append.1 hn with hn | hn
      · exact ⟨b, by simp, h3 n hn, (hB.mem_descendants _ _).1 ((below_sublist hB skip b).subset hn)⟩
      · obtain ⟨b', hb', h4⟩ := h2 n hn
        exact ⟨b', by simp [hb'], h4⟩

/-! ### The contents of the insertions -/

theorem flatMap_filterMap_nodes {f : Nat → Option InsertContent} {g : Nat → List NodeKind} {l : List Nat}
    (h : ∀ n ∈ l, ((f n).map InsertContent.nodes).getD [] = g n) :
    InsertContent.nodesL (l.filterMap f) = l.flatMap g := by
  induction l with
  | nil => rfl
  | cons n l ih =>
    have ih := ih fun m hm => h m (by simp [hm])
    have hn := h n (by simp)
    rw [List.flatMap_cons, ← hn, ← ih]
    cases e : f n with
    | none => rw [List.filterMap_cons_none e]; rfl
    | some c => rw [List.filterMap_cons_some e]; rfl

theorem extract_nodes {D : Document} (hD : D.arena.WF) (hB : (diffable D).WF) (skip : Nat → Bool) {b : Nat}
    (hdoc : ∀ n, D.arena.Anc b n → (D.arena.data n).kind ≠ .document) (hleaf : Leafy D.arena) (n : Nat) :
    D.arena.Anc b n → (((diffable D).fold (extractAlg (diffable D) skip) n).map InsertContent.nodes).getD [] =
      (copied D.arena skip n).map fun n => (D.arena.data n).kind := by
  refine hD.induct_down (P := fun n => D.arena.Anc b n →
    (((diffable D).fold (extractAlg (diffable D) skip) n).map InsertContent.nodes).getD [] =
      (copied D.arena skip n).map fun n => (D.arena.data n).kind) ?_ n
  intro n ih hn
  have ih' : ∀ m ∈ D.arena.children n, _ := fun m hm => ih m hm (.step ((hD.mem_iff _ _).1 hm) hn)
  rw [hB.fold_eq, extractAlg, copied_eq hD]
  split
  · rfl
  · show ((some (match (tdataOf (D.arena.data n)).kind with
      | .element tag _ => .element tag (tdataOf (D.arena.data n)).props _
      | .text => .text ((tdataOf (D.arena.data n)).text.getD [])
      | .comment => .comment ((tdataOf (D.arena.data n)).text.getD []))).map InsertContent.nodes).getD [] = _
    rw [List.map_cons]
    cases ek : (D.arena.data n).kind with
    | element tag attrs =>
      simp only [tdataOf, ek]
      show _ :: InsertContent.nodesL _ = _
      rw [List.filterMap_map, List.map_flatMap]
      congr 1
      exact flatMap_filterMap_nodes ih'
    | text s =>
      simp only [tdataOf, ek]
      rw [hleaf.leaf n (.inl ⟨s, ek⟩)]
      rfl
    | comment s =>
      simp only [tdataOf, ek]
      rw [hleaf.leaf n (.inr ⟨s, ek⟩)]
      rfl
    | document => exact absurd ek (hdoc n hn)

theorem insertContent_nodes {D : Arena NodeData} (hD : D.WF) (hleaf : Leafy D) {b : Nat}
    (hdoc : ∀ n, D.Anc b n → (D.data n).kind ≠ .document) (n : Nat) :
    D.Anc b n → ((D.fold (insertContentAlg D) n).map InsertContent.nodes).getD [] =
      (D.descendants n).map fun n => (D.data n).kind := by
  refine hD.induct_down (P := fun n => D.Anc b n → ((D.fold (insertContentAlg D) n).map InsertContent.nodes).getD [] =
      (D.descendants n).map fun n => (D.data n).kind) ?_ n
  intro n ih hn
  have ih' : ∀ m ∈ D.children n, _ := fun m hm => ih m hm (.step ((hD.mem_iff _ _).1 hm) hn)
  rw [hD.fold_eq, insertContentAlg, hD.descendants_flatMap, List.map_cons]
  cases ek : (D.data n).kind with
  | element tag attrs =>
    show _ :: InsertContent.nodesL _ = _
    rw [List.filterMap_map, List.map_flatMap]
    congr 1
    exact flatMap_filterMap_nodes ih'
  | text s =>
    rw [hleaf.leaf n (.inl ⟨s, ek⟩)]
    rfl
  | comment s =>
    rw [hleaf.leaf n (.inr ⟨s, ek⟩)]
    rfl
  | document => exact absurd ek (hdoc n hn)

/-! ### The conversion of the edit script -/

/-- What one operation of the script becomes: exactly one patch, of its kind, except that moving a node below
itself takes further Moves. -/
theorem convertOp_sort {B : Arena TData} {ins : List Nat} {C C' : Conv} {op : EditOp} {ps : List Patch}
    (h : convertOp B ins C op = .ok (C', ps)) :
    (∀ k, k ≠ .move → countSort k ps = if op.sort = k then 1 else 0) ∧
    (op.sort ≠ .move → countSort .move ps = 0) := by
  have one : ∀ (P : Patch) (k : PatchSort), countSort k [P] = if P.sort = k then 1 else 0 := by
    intro P k
    simp [countSort, List.countP_cons]
  cases op with
  | updateProps a b changes =>
    simp only [convertOp, Except.ok.injEq, Prod.mk.injEq] at h
    obtain ⟨_, rfl⟩ := h
    exact ⟨fun k _ => one _ k, fun _ => one _ _⟩
  | setText a b t =>
    simp only [convertOp, Except.ok.injEq, Prod.mk.injEq] at h
    obtain ⟨_, rfl⟩ := h
    exact ⟨fun k _ => one _ k, fun _ => one _ _⟩
  | insert b pb pos kind =>
    simp only [convertOp] at h
    obtain ⟨sp, _, h⟩ := res_bind h
    obtain ⟨⟨S, slot⟩, _, h⟩ := res_bind h
    simp only [Except.ok.injEq, Prod.mk.injEq] at h
    obtain ⟨_, rfl⟩ := h
    cases kind with
    | element tag ns => exact ⟨fun k _ => one _ k, fun _ => one _ _⟩
    | text => exact ⟨fun k _ => one _ k, fun _ => one _ _⟩
    | comment => exact ⟨fun k _ => one _ k, fun _ => one _ _⟩
  | delete a =>
    simp only [convertOp] at h
    obtain ⟨S, _, h⟩ := res_bind h
    simp only [Except.ok.injEq, Prod.mk.injEq] at h
    obtain ⟨_, rfl⟩ := h
    exact ⟨fun k _ => one _ k, fun _ => one _ _⟩
  | move a b pb pos =>
    refine ⟨fun k hk => ?_, fun e => absurd rfl e⟩
    have hm : ∀ P ∈ ps, P.sort = .move := by
      simp only [convertOp] at h
      obtain ⟨sp, _, h⟩ := res_bind h
      split at h
      · obtain ⟨⟨S, pre⟩, h1, h⟩ := res_bind h
        obtain ⟨⟨S', slot⟩, _, h⟩ := res_bind h
        simp only [Except.ok.injEq, Prod.mk.injEq] at h
        obtain ⟨_, rfl⟩ := h
        intro P hP
        rcases List.mem_append.1 hP with hP | hP
        · obtain ⟨f, t, rfl⟩ := reparentChildren_moves h1 P hP; rfl
        · rw [List.mem_singleton] at hP; subst hP; rfl
      · obtain ⟨⟨S, pre⟩, h1, h⟩ := res_bind h
        simp only [Except.ok.injEq, Prod.mk.injEq] at h1
        obtain ⟨⟨S', slot⟩, _, h⟩ := res_bind h
        simp only [Except.ok.injEq, Prod.mk.injEq] at h
        obtain ⟨_, rfl⟩ := h
        intro P hP
        rw [← h1.2, List.nil_append, List.mem_singleton] at hP
        subst hP; rfl
    have : (EditOp.move a b pb pos).sort ≠ k := fun e => hk e.symm
    rw [if_neg this]
    unfold countSort
    rw [List.countP_eq_zero]
    intro P hP e
    simp only [decide_eq_true_eq] at e
    exact hk (e.symm.trans (hm P hP))

/-- A Move that does not put a node below itself becomes one Move. -/
theorem convertOp_move {B : Arena TData} {ins : List Nat} {C C' : Conv} {a b pb pos : Nat} {ps : List Patch}
    (hf : (match C.parentOf pb with
        | .ok sp => !C.shadow.isAncestor a sp
        | .error _ => true) = true)
    (h : convertOp B ins C (.move a b pb pos) = .ok (C', ps)) : countSort .move ps = 1 := by
  simp only [convertOp] at h
  obtain ⟨sp, hsp, h⟩ := res_bind h
  rw [hsp] at hf
  simp only [Bool.not_eq_true'] at hf
  rw [hf] at h
  simp only [Bool.false_eq_true, if_false] at h
  obtain ⟨⟨S, pre⟩, h1, h⟩ := res_bind h
  simp only [Except.ok.injEq, Prod.mk.injEq] at h1
  obtain ⟨⟨S', slot⟩, _, h⟩ := res_bind h
  simp only [Except.ok.injEq, Prod.mk.injEq] at h
  obtain ⟨_, rfl⟩ := h
  rw [← h1.2]
  rfl

theorem convertLoop_sort {B : Arena TData} {ins : List Nat} (ops : List EditOp) :
    ∀ {C C' : Conv} {ps : List Patch}, convertLoop B ins C ops = .ok (C', ps) →
      ∀ k, k ≠ .move → countSort k ps = ops.countP fun op => decide (op.sort = k) := by
  induction ops with
  | nil => intro C C' ps h k _; cases h; rfl
  | cons op ops ih =>
    intro C C' ps h k hk
    obtain ⟨v, h1, h⟩ := res_bind h
    obtain ⟨v', h2, h⟩ := res_bind h
    cases h
    rw [countSort_append, (convertOp_sort h1).1 k hk, ih h2 k hk, List.countP_cons]
    simp only [decide_eq_true_eq]
    omega

theorem convertLoop_moves {B : Arena TData} {ins : List Nat} (ops : List EditOp) :
    ∀ {C C' : Conv} {ps : List Patch}, convertLoop B ins C ops = .ok (C', ps) →
      ancestorFree B ins C ops = true → countSort .move ps = ops.countP fun op => decide (op.sort = .move) := by
  induction ops with
  | nil => intro C C' ps h _; cases h; rfl
  | cons op ops ih =>
    intro C C' ps h hf
    obtain ⟨⟨C1, ps1⟩, h1, h⟩ := res_bind h
    obtain ⟨v', h2, h⟩ := res_bind h
    cases h
    have key : countSort .move ps1 = (if op.sort = .move then 1 else 0) ∧ ancestorFree B ins C1 ops = true := by
      cases op with
      | move a b pb pos =>
        simp only [ancestorFree, h1, Bool.and_eq_true] at hf
        exact ⟨convertOp_move hf.1 h1, hf.2⟩
      | _ =>
        simp only [ancestorFree, h1, Bool.true_and] at hf
        exact ⟨(convertOp_sort h1).2 (by intro e; cases e), hf⟩
    rw [countSort_append, ih h2 key.2, List.countP_cons, key.1]
    simp only [decide_eq_true_eq]
    omega

/-- The nodes of the new tree whose copies the patches of a script create. -/
theorem convertLoop_sent {D : Document} {nb : Nat} (hleaf : Leafy D.arena) (hB : (diffable D).WF)
    (hdoc : ∀ n, D.arena.Anc nb n → (D.arena.data n).kind ≠ .document) {ins : List Nat} (ops : List EditOp) :
    ∀ {C C' : Conv} {ps : List Patch}, (∀ op ∈ ops, op.From D nb) →
      convertLoop (diffable D) ins C ops = .ok (C', ps) →
      ∃ ns, Sent D.arena ins (insertedNodes ops) ns ∧
        ps.flatMap Patch.nodes = ns.map fun n => (D.arena.data n).kind := by
  have hD := hleaf.wf
  induction ops with
  | nil => intro C C' ps _ h; cases h; exact ⟨[], .nil, rfl⟩
  | cons op ops ih =>
    intro C C' ps ho h
    obtain ⟨v, h1, h⟩ := res_bind h
    obtain ⟨v', h2, h⟩ := res_bind h
    cases h
    obtain ⟨ns, hs, e⟩ := ih (fun op hop => ho op (by simp [hop])) h2
    rw [List.flatMap_append, e]
    have other : (∀ b pb pos k, op ≠ .insert b pb pos k) → v.2.flatMap Patch.nodes = [] := by
      intro hne
      have hz : countSort .insert v.2 = 0 := by
        rw [(convertOp_sort h1).1 .insert (by intro e; cases e)]
        cases op with
        | insert b pb pos k => exact absurd rfl (hne b pb pos k)
        | _ => rfl
      rw [List.flatMap_eq_nil_iff]
      intro P hP
      have := List.countP_eq_zero.1 hz P hP
      cases P <;> first | rfl | (exact absurd rfl this)
    cases op with
    | insert b pb pos kind =>
      obtain ⟨ha, rfl⟩ := ho (.insert b pb pos kind) (by simp)
      simp only [convertOp] at h1
      obtain ⟨sp, _, h1⟩ := res_bind h1
      obtain ⟨⟨S, slot⟩, _, h1⟩ := res_bind h1
      simp only [Except.ok.injEq] at h1
      subst h1
      generalize Arena.upd C.bToShadow b (some (C.shadow.arena.newNode ⟨(tdataOf (D.arena.data b)).kind, ((diffable D).data b).props, ((diffable D).data b).text⟩).2) = bts
      refine ⟨_, .cons (fun c => (bts c).isSome || decide (c ∈ ins)) (by intro c hc; simp [hc]) hs, ?_⟩
      rw [List.map_append]
      congr 1
      rw [List.flatMap_singleton]
      show Patch.nodes (match (tdataOf (D.arena.data b)).kind with
        | .element tag _ => Patch.insertElement _ tag (tdataOf (D.arena.data b)).props
            (extractChildren (diffable D) _ b) _
        | .text => Patch.insertText _ ((tdataOf (D.arena.data b)).text.getD []) _
        | .comment => Patch.insertComment _ ((tdataOf (D.arena.data b)).text.getD []) _) = _
      rw [List.map_cons]
      cases ek : (D.arena.data b).kind with
      | element tag attrs =>
        simp only [tdataOf, ek]
        show _ :: InsertContent.nodesL _ = _
        rw [List.map_flatMap]
        congr 1
        exact flatMap_filterMap_nodes fun m hm =>
          extract_nodes hD hB _ hdoc hleaf m (.step ((hD.mem_iff _ _).1 hm) ha)
      | text s =>
        simp only [tdataOf, ek]
        rw [hleaf.leaf b (.inl ⟨s, ek⟩)]; rfl
      | comment s =>
        simp only [tdataOf, ek]
        rw [hleaf.leaf b (.inr ⟨s, ek⟩)]; rfl
      | document => exact absurd ek (hdoc b ha)
    | updateProps a b changes => exact ⟨ns, hs, by rw [other (by intro _ _ _ _ e; cases e)]; rfl⟩
    | setText a b t => exact ⟨ns, hs, by rw [other (by intro _ _ _ _ e; cases e)]; rfl⟩
    | delete a => exact ⟨ns, hs, by rw [other (by intro _ _ _ _ e; cases e)]; rfl⟩
    | move a b pb pos => exact ⟨ns, hs, by rw [other (by intro _ _ _ _ e; cases e)]; rfl⟩

/-! ### The edit script -/

theorem countP_flatMap_le {α β : Type} (p : β → Bool) (f : α → List β) (l : List α)
    (h : ∀ x ∈ l, (f x).countP p ≤ 1) : (l.flatMap f).countP p ≤ l.length := by
  induction l with
  | nil => simp
  | cons x l ih =>
    rw [List.flatMap_cons, List.countP_append, List.length_cons]
    have := h x (by simp)
    have := ih fun y hy => h y (by simp [hy])
    omega

theorem countP_flatMap_zero {α β : Type} (p : β → Bool) (f : α → List β) (l : List α)
    (h : ∀ x ∈ l, ∀ y ∈ f x, p y = false) : (l.flatMap f).countP p = 0 := by
  rw [List.countP_eq_zero]
  intro y hy
  obtain ⟨x, hx, hy⟩ := List.mem_flatMap.1 hy
  rw [h x hx y hy]; simp

variable {H : Type} [DecidableEq H]

theorem textOps_cases (TA TB : DiffTree H) (a b : Nat) : textOps TA TB a b = [] ∨ ∃ t, textOps TA TB a b = [.setText a b t] := by
  unfold textOps
  split
  · exact .inl rfl
  · split
    · exact .inr ⟨_, rfl⟩
    · exact .inl rfl

theorem propOps_cases (TA TB : DiffTree H) (a b : Nat) : propOps TA TB a b = [] ∨ ∃ t, propOps TA TB a b = [.updateProps a b t] := by
  unfold propOps
  split
  · exact .inl rfl
  · simp only
    split
    · exact .inr ⟨_, rfl⟩
    · exact .inl rfl

theorem moveOp_cases (TA TB : DiffTree H) (M : Matching) (oA oB : List Nat) (p : Nat × Nat) :
    moveOp TA TB M oA oB p = [] ∨ ∃ q i, moveOp TA TB M oA oB p = [.move p.1 p.2 q i] := by
  unfold moveOp
  split
  · exact .inl rfl
  · split
    · split
      · exact .inr ⟨_, _, rfl⟩
      · split
        · exact .inr ⟨_, _, rfl⟩
        · exact .inl rfl
    · exact .inl rfl

/-- At most one text update, one attribute update and one Move for a matched pair, one insertion for a node of the
new tree, one deletion for a node of the old tree. -/
theorem script_sort (TA TB : DiffTree H) (M : Matching) (k : PatchSort) :
    (generateEditScript TA TB M).countP (fun op => decide (op.sort = k)) ≤
      match k with
      | .insert => TB.iter.length
      | .remove => TA.postOrder.length
      | .text => M.pairs.length
      | .props => M.pairs.length
      | .move => M.pairs.length
      | .attribute => 0
      | .opaque => 0 := by
  simp only [generateEditScript, List.countP_append]
  have hu : (updateOps TA TB M (opaqueDescendants TA) (opaqueDescendants TB)).countP (fun op => decide (op.sort = k)) ≤
      if k = .text ∨ k = .props then M.pairs.length else 0 := by
    unfold updateOps
    split
    · refine countP_flatMap_le _ _ _ fun p _ => ?_
      split
      · simp
      · rw [List.countP_append]
        rcases textOps_cases TA TB p.1 p.2 with e | ⟨t, e⟩ <;> rcases propOps_cases TA TB p.1 p.2 with e' | ⟨t', e'⟩ <;>
          rw [e, e'] <;> cases k <;> simp [EditOp.sort]
    · next hk =>
      refine Nat.le_of_eq (countP_flatMap_zero _ _ _ fun p _ op hop => ?_)
      split at hop
      · cases hop
      · rcases List.mem_append.1 hop with hop | hop
        · rcases textOps_cases TA TB p.1 p.2 with e | ⟨t, e⟩ <;> rw [e] at hop
          · cases hop
          · rw [List.mem_singleton] at hop; subst hop
            exact decide_eq_false fun e => hk (.inl e.symm)
        · rcases propOps_cases TA TB p.1 p.2 with e | ⟨t, e⟩ <;> rw [e] at hop
          · cases hop
          · rw [List.mem_singleton] at hop; subst hop
            exact decide_eq_false fun e => hk (.inr e.symm)
  have hi : (insertOps TB M (opaqueDescendants TB)).countP (fun op => decide (op.sort = k)) ≤
      if k = .insert then TB.iter.length else 0 := by
    unfold insertOps
    split
    · refine countP_flatMap_le _ _ _ fun b _ => ?_
      split
      · simp
      · split
        · simp
        · split
          · simp
          · exact List.countP_le_length
    · next hk =>
      refine Nat.le_of_eq (countP_flatMap_zero _ _ _ fun b _ op hop => ?_)
      split at hop
      · cases hop
      · split at hop
        · cases hop
        · split at hop
          · cases hop
          · rw [List.mem_singleton] at hop; subst hop
            exact decide_eq_false fun e => hk e.symm
  have hm : (moveOps TA TB M (opaqueDescendants TA) (opaqueDescendants TB)).countP (fun op => decide (op.sort = k)) ≤
      if k = .move then M.pairs.length else 0 := by
    unfold moveOps
    split
    · refine countP_flatMap_le _ _ _ fun p _ => ?_
      rcases moveOp_cases TA TB M (opaqueDescendants TA) (opaqueDescendants TB) p with e | ⟨q, i, e⟩ <;> rw [e]
      · simp
      · exact List.countP_le_length
    · next hk =>
      refine Nat.le_of_eq (countP_flatMap_zero _ _ _ fun p _ op hop => ?_)
      rcases moveOp_cases TA TB M (opaqueDescendants TA) (opaqueDescendants TB) p with e | ⟨q, i, e⟩ <;> rw [e] at hop
      · cases hop
      · rw [List.mem_singleton] at hop; subst hop
        exact decide_eq_false fun e => hk e.symm
  have hd : (deleteOps TA M (opaqueDescendants TA)).countP (fun op => decide (op.sort = k)) ≤
      if k = .remove then TA.postOrder.length else 0 := by
    unfold deleteOps
    split
    · refine countP_flatMap_le _ _ _ fun b _ => ?_
      split
      · simp
      · split
        · simp
        · exact List.countP_le_length
    · next hk =>
      refine Nat.le_of_eq (countP_flatMap_zero _ _ _ fun b _ op hop => ?_)
      split at hop
      · cases hop
      · split at hop
        · cases hop
        · rw [List.mem_singleton] at hop; subst hop
          exact decide_eq_false fun e => hk e.symm
  cases k <;> simp only [reduceCtorEq, or_false, or_true, if_true, if_false, false_or, or_self] at hu hi hm hd ⊢ <;> omega

end Hotmeal
