import Mathlib.Data.List.Forall2
import Verif.Lemmas.ConvertLoop
import Verif.Props.Slots

set_option autoImplicit false
set_option linter.unusedSectionVars false

/-!
# Where the content of generated patches comes from
-/

namespace Hotmeal

mutual
/-- The content is a copy of the node `n`, of which some descendants may be left out. -/
inductive CopyOf (D : Arena NodeData) : InsertContent → Nat → Prop
  | text {n : Nat} {s : Str} (h : (D.data n).kind = .text s) : CopyOf D (.text s) n
  | comment {n : Nat} {s : Str} (h : (D.data n).kind = .comment s) : CopyOf D (.comment s) n
  | element {n : Nat} {tag : Str} {attrs : Attrs} {cs : List InsertContent}
      (h : (D.data n).kind = .element tag attrs) (hc : CopiesOf D cs (D.children n)) :
      CopyOf D (.element tag attrs cs) n
/-- The contents are copies of some of the nodes, in the same order. -/
inductive CopiesOf (D : Arena NodeData) : List InsertContent → List Nat → Prop
  | nil : CopiesOf D [] []
  | skip {cs : List InsertContent} {n : Nat} {ns : List Nat} (h : CopiesOf D cs ns) : CopiesOf D cs (n :: ns)
  | keep {c : InsertContent} {cs : List InsertContent} {n : Nat} {ns : List Nat} (h : CopyOf D c n)
      (hs : CopiesOf D cs ns) : CopiesOf D (c :: cs) (n :: ns)
end

/-- What the patch writes is found in the document `D` at or below the node `b`. -/
def Patch.From (D : Arena NodeData) (b : Nat) : Patch → Prop
  | .insertElement _ tag attrs cs _ => ∃ n, D.Anc b n ∧ CopyOf D (.element tag attrs cs) n
  | .insertText _ s _ => ∃ n, D.Anc b n ∧ (D.data n).kind = .text s
  | .insertComment _ s _ => ∃ n, D.Anc b n ∧ (D.data n).kind = .comment s
  | .setText _ s => ∃ n, D.Anc b n ∧ ((D.data n).kind = .text s ∨ (D.data n).kind = .comment s)
  | .updateProps _ changes => changes = [] ∨ ∃ n tag attrs, D.Anc b n ∧ (D.data n).kind = .element tag attrs ∧
      List.Forall₂ (fun (c : PropChange) (kv : QualName × Str) => c.name = .attr kv.1 ∧
        (c.value = none ∨ c.value = some kv.2)) changes attrs
  | .opaqueChanged _ html => ∃ n, D.Anc b n ∧ html = serializeInner D n
  | .setAttribute .. => False
  | .removeAttribute .. => False
  | .remove _ => True
  | .move .. => True

theorem copiesOf_filterMap {D : Arena NodeData} {f : Nat → Option InsertContent} {ns : List Nat}
    (h : ∀ n ∈ ns, ∀ c, f n = some c → CopyOf D c n) : CopiesOf D (ns.filterMap f) ns := by
  induction ns with
  | nil => exact .nil
  | cons n ns ih =>
    have := ih fun m hm => h m (by simp [hm])
    cases e : f n with
    | none => rw [List.filterMap_cons_none e]; exact .skip this
    | some c => rw [List.filterMap_cons_some e]; exact .keep (h n (by simp) c e) this

/-- `create_insert_content` copies the node. -/
theorem insertContent_copy {D : Arena NodeData} (hD : D.WF) (n : Nat) :
    ∀ c, D.fold (insertContentAlg D) n = some c → CopyOf D c n := by
  refine hD.induct_down (P := fun n => ∀ c, D.fold (insertContentAlg D) n = some c → CopyOf D c n) ?_ n
  intro n ih c hc
  rw [hD.fold_eq, insertContentAlg] at hc
  split at hc
  · next tag attrs ek =>
    injection hc with hc; subst hc
    refine .element ek ?_
    rw [List.filterMap_map]
    exact copiesOf_filterMap fun m hm => ih m hm
  · next ek => injection hc with hc; subst hc; exact .text ek
  · next ek => injection hc with hc; subst hc; exact .comment ek
  · cases hc

/-- `extract_content_from_tree_b` copies the node, except for what it skips. -/
theorem extract_copy {D : Document} (hD : D.arena.WF) (hB : (diffable D).WF) (skip : Nat → Bool)
    {b : Nat} (hdoc : ∀ n, D.arena.Anc b n → (D.arena.data n).kind ≠ .document) (n : Nat) :
    D.arena.Anc b n → ∀ c, (diffable D).fold (extractAlg (diffable D) skip) n = some c → CopyOf D.arena c n := by
  refine hD.induct_down (P := fun n => D.arena.Anc b n →
    ∀ c, (diffable D).fold (extractAlg (diffable D) skip) n = some c → CopyOf D.arena c n) ?_ n
  intro n ih hn c hc
  rw [hB.fold_eq, extractAlg] at hc
  split at hc
  · cases hc
  · injection hc with hc
    subst hc
    show CopyOf D.arena (match (tdataOf (D.arena.data n)).kind with
      | .element tag _ => .element tag (tdataOf (D.arena.data n)).props _
      | .text => .text ((tdataOf (D.arena.data n)).text.getD [])
      | .comment => .comment ((tdataOf (D.arena.data n)).text.getD [])) n
    cases ek : (D.arena.data n).kind with
    | element tag attrs =>
      simp only [tdataOf, ek]
      refine .element ek ?_
      rw [List.filterMap_map]
      exact copiesOf_filterMap fun m hm => ih m hm (.step ((hD.mem_iff _ _).1 hm) hn)
    | text s => simp only [tdataOf, ek]; exact .text ek
    | comment s => simp only [tdataOf, ek]; exact .comment ek
    | document => exact absurd ek (hdoc n hn)

theorem reparentChildren_moves {S S' : Shadow} {n : Nat} {ps : List Patch}
    (h : reparentChildren S n = .ok (S', ps)) : ∀ P ∈ ps, ∃ f t, P = .move f t none := by
  unfold reparentChildren at h
  split at h
  · cases h
  · next p _ =>
    simp only at h
    generalize (S.arena.children n).zipIdx.reverse = l at h
    generalize Arena.posIn (S.arena.children p) n = pos at h
    suffices ∀ (l : List (Nat × Nat)) (S : Shadow) (out : List Patch), (∀ P ∈ out, ∃ f t, P = .move f t none) →
        ∀ S' ps, l.foldlM (fun (x : Shadow × List Patch) (ci : Nat × Nat) => do
          let (S, patch) ← reparentChild p pos x.1 ci.2 ci.1
          .ok (S, x.2 ++ [patch])) (S, out) = Except.ok (ε := Err) (S', ps) → ∀ P ∈ ps, ∃ f t, P = .move f t none from
      this l S [] (by simp) S' ps h
    intro l
    induction l with
    | nil =>
      intro S out ho S' ps h
      cases h; exact ho
    | cons ci l ih =>
      intro S out ho S' ps h
      rw [List.foldlM_cons] at h
      obtain ⟨v, h1, h2⟩ := res_bind h
      obtain ⟨v1, h3, h4⟩ := res_bind h1
      cases h4
      refine ih _ _ ?_ _ _ h2
      intro P hP
      rcases List.mem_append.1 hP with hP | hP
      · exact ho P hP
      · simp only [List.mem_singleton] at hP
        subst hP
        unfold reparentChild at h3
        obtain ⟨u, _, h5⟩ := res_bind h3
        simp only at h5
        split at h5
        · obtain ⟨u', _, h6⟩ := res_bind h5
          cases h6; exact ⟨_, _, rfl⟩
        · obtain ⟨u', _, h6⟩ := res_bind h5
          cases h6; exact ⟨_, _, rfl⟩

/-- What an operation of the edit script takes from the new tree. -/
def EditOp.From (D : Document) (nb : Nat) : EditOp → Prop
  | .updateProps _ b changes => changes = [] ∨ D.arena.Anc nb b ∧ ∃ tag attrs, (D.arena.data b).kind = .element tag attrs ∧
      List.Forall₂ (fun (c : PropFinal) (kv : QualName × Str) => c.key = .attr kv.1 ∧
        (c.value = .same ∨ c.value = .different kv.2)) changes attrs
  | .setText _ b t => D.arena.Anc nb b ∧ ((D.arena.data b).kind = .text t ∨ (D.arena.data b).kind = .comment t)
  | .insert b _ _ kind => D.arena.Anc nb b ∧ kind = (tdataOf (D.arena.data b)).kind
  | _ => True

theorem convertOp_from {D : Document} {nb : Nat} (hD : D.arena.WF) (hB : (diffable D).WF)
    (hdoc : ∀ n, D.arena.Anc nb n → (D.arena.data n).kind ≠ .document) {ins : List Nat} {C C' : Conv}
    {op : EditOp} {ps : List Patch} (ho : op.From D nb)
    (h : convertOp (diffable D) ins C op = .ok (C', ps)) : ∀ P ∈ ps, P.From D.arena nb := by
  cases op with
  | updateProps a b changes =>
    simp only [convertOp, Except.ok.injEq, Prod.mk.injEq] at h
    obtain ⟨_, rfl⟩ := h
    intro P hP
    rw [List.mem_singleton] at hP
    subst hP
    rcases ho with rfl | ⟨ha, tag, attrs, ek, hf⟩
    · exact .inl rfl
    refine .inr ⟨b, tag, attrs, ha, ek, ?_⟩
    clear ek
    induction hf with
    | nil => exact .nil
    | cons h1 _ ih =>
      refine .cons ⟨h1.1, ?_⟩ ih
      rcases h1.2 with e | e
      · simp only [e]; exact .inl trivial
      · simp only [e]; exact .inr trivial
  | setText a b t =>
    simp only [convertOp, Except.ok.injEq, Prod.mk.injEq] at h
    obtain ⟨_, rfl⟩ := h
    intro P hP; rw [List.mem_singleton] at hP; subst hP
    exact ⟨b, ho⟩
  | insert b pb pos kind =>
    obtain ⟨ha, rfl⟩ := ho
    simp only [convertOp] at h
    obtain ⟨sp, _, h⟩ := res_bind h
    obtain ⟨⟨S, slot⟩, _, h⟩ := res_bind h
    simp only [Except.ok.injEq, Prod.mk.injEq] at h
    obtain ⟨_, rfl⟩ := h
    intro P hP; rw [List.mem_singleton] at hP; subst hP
    show Patch.From D.arena nb (match (tdataOf (D.arena.data b)).kind with
      | .element tag _ => Patch.insertElement _ tag (tdataOf (D.arena.data b)).props
          (extractChildren (diffable D) _ b) _
      | .text => Patch.insertText _ ((tdataOf (D.arena.data b)).text.getD []) _
      | .comment => Patch.insertComment _ ((tdataOf (D.arena.data b)).text.getD []) _)
    cases ek : (D.arena.data b).kind with
    | element tag attrs =>
      simp only [tdataOf, ek]
      refine ⟨b, ha, .element ek (copiesOf_filterMap fun m hm => ?_)⟩
      exact extract_copy hD hB _ hdoc m (.step ((hD.mem_iff _ _).1 hm) ha)
    | text s => simp only [tdataOf, ek]; exact ⟨b, ha, ek⟩
    | comment s => simp only [tdataOf, ek]; exact ⟨b, ha, ek⟩
    | document => exact absurd ek (hdoc b ha)
  | delete a =>
    simp only [convertOp] at h
    obtain ⟨S, _, h⟩ := res_bind h
    simp only [Except.ok.injEq, Prod.mk.injEq] at h
    obtain ⟨_, rfl⟩ := h
    intro P hP; rw [List.mem_singleton] at hP; subst hP; trivial
  | move a b pb pos =>
    simp only [convertOp] at h
    obtain ⟨sp, _, h⟩ := res_bind h
    split at h
    · obtain ⟨⟨S, pre⟩, h1, h⟩ := res_bind h
      obtain ⟨⟨S', slot⟩, _, h⟩ := res_bind h
      simp only [Except.ok.injEq, Prod.mk.injEq] at h
      obtain ⟨_, rfl⟩ := h
      intro P hP
      rcases List.mem_append.1 hP with hP | hP
      · obtain ⟨f, t, rfl⟩ := reparentChildren_moves h1 P hP; trivial
      · rw [List.mem_singleton] at hP; subst hP; trivial
    · obtain ⟨⟨S, pre⟩, h1, h⟩ := res_bind h
      simp only [Except.ok.injEq, Prod.mk.injEq] at h1
      obtain ⟨⟨S', slot⟩, _, h⟩ := res_bind h
      simp only [Except.ok.injEq, Prod.mk.injEq] at h
      obtain ⟨_, rfl⟩ := h
      intro P hP
      rw [← h1.2, List.nil_append, List.mem_singleton] at hP
      subst hP; trivial

theorem convertLoop_from {D : Document} {nb : Nat} (hD : D.arena.WF) (hB : (diffable D).WF)
    (hdoc : ∀ n, D.arena.Anc nb n → (D.arena.data n).kind ≠ .document) {ins : List Nat} (ops : List EditOp) :
    ∀ {C C' : Conv} {ps : List Patch}, (∀ op ∈ ops, op.From D nb) →
      convertLoop (diffable D) ins C ops = .ok (C', ps) → ∀ P ∈ ps, P.From D.arena nb := by
  induction ops with
  | nil => intro C C' ps _ h; cases h; intro P hP; cases hP
  | cons op ops ih =>
    intro C C' ps ho h
    obtain ⟨v, h1, h⟩ := res_bind h
    obtain ⟨v', h2, h⟩ := res_bind h
    cases h
    intro P hP
    rcases List.mem_append.1 hP with hP | hP
    · exact convertOp_from hD hB hdoc (ho op (by simp)) h1 P hP
    · exact ih (fun op hop => ho op (by simp [hop])) h2 P hP

theorem diffLoop_from (o : Attrs) (od : Bool) (new : Attrs) (forced : Bool) :
    List.Forall₂ (fun (c : PropFinal) (kv : QualName × Str) => c.key = .attr kv.1 ∧
        (c.value = .same ∨ c.value = .different kv.2)) (o.diffLoop od forced new) new := by
  induction new generalizing forced with
  | nil => exact .nil
  | cons kv rest ih =>
    obtain ⟨k, v⟩ := kv
    simp only [Attrs.diffLoop]
    refine .cons ⟨rfl, ?_⟩ (ih _)
    simp only
    split
    · exact .inl rfl
    · exact .inr rfl

theorem script_from {H : Type} [DecidableEq H] {hashNode : HKind → Option Str → List H → H}
    {A : Arena TData} {D : Document} {nb : Nat} {M : Matching} (hD : D.arena.WF) (hB : (diffable D).WF)
    (hM : ∀ a b, (a, b) ∈ M.pairs → D.arena.Anc nb b) :
    ∀ op ∈ generateEditScript (DiffTree.ofArena hashNode A 0) (DiffTree.ofArena hashNode (diffable D) nb) M,
      op.From D nb := by
  intro op hop
  simp only [generateEditScript, List.mem_append] at hop
  rcases hop with ((hop | hop) | hop) | hop
  · obtain ⟨⟨a, b⟩, hab, hop⟩ := List.mem_flatMap.1 hop
    split at hop
    · cases hop
    · rcases List.mem_append.1 hop with hop | hop
      · unfold textOps at hop
        split at hop
        · cases hop
        · split at hop
          · next t et =>
            rw [List.mem_singleton] at hop; subst hop
            refine ⟨hM a b hab, ?_⟩
            have et' : (tdataOf (D.arena.data b)).text = some t := et
            cases ek : (D.arena.data b).kind with
            | element tag attrs => simp [tdataOf, ek] at et'
            | text s => simp only [tdataOf, ek, Option.some.injEq] at et'; exact .inl (by rw [et'])
            | comment s => simp only [tdataOf, ek, Option.some.injEq] at et'; exact .inr (by rw [et'])
            | document => simp [tdataOf, ek] at et'
          · cases hop
      · unfold propOps at hop
        split at hop
        · cases hop
        · next hne =>
          simp only at hop
          split at hop
          · rw [List.mem_singleton] at hop; subst hop
            cases ek : (D.arena.data b).kind with
            | element tag attrs =>
              refine .inr ⟨hM a b hab, tag, attrs, ek, ?_⟩
              have : (DiffTree.ofArena hashNode (diffable D) nb).props b = attrs := by
                show (tdataOf (D.arena.data b)).props = attrs
                simp only [tdataOf, ek]
              rw [this]
              exact diffLoop_from _ _ _ _
            | _ =>
              left
              show Attrs.diff _ (tdataOf (D.arena.data b)).props = []
              simp only [tdataOf, ek]
              rfl
          · cases hop
  · obtain ⟨b, hb, hop⟩ := List.mem_flatMap.1 hop
    have hanc := anc_of_diffable ((hB.mem_descendants nb b).1 hb)
    split at hop
    · cases hop
    · split at hop
      · cases hop
      · split at hop
        · cases hop
        · rw [List.mem_singleton] at hop; subst hop
          exact ⟨hanc, rfl⟩
  · obtain ⟨⟨a, b⟩, hab, hop⟩ := List.mem_flatMap.1 hop
    unfold moveOp at hop
    split at hop
    · cases hop
    · split at hop
      · split at hop
        · rw [List.mem_singleton] at hop; subst hop; trivial
        · split at hop
          · rw [List.mem_singleton] at hop; subst hop; trivial
          · cases hop
      · cases hop
  · obtain ⟨b, hb, hop⟩ := List.mem_flatMap.1 hop
    split at hop
    · cases hop
    · split at hop
      · cases hop
      · rw [List.mem_singleton] at hop; subst hop; trivial

end Hotmeal
