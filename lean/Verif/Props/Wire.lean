import Verif.Model.Wire
import Verif.Props.Browser
import Verif.Props.Slots

set_option autoImplicit false
set_option linter.unusedSectionVars false

/-!
# C35 and C45: owned patches and patches sent over the wire
-/

namespace Hotmeal

/-! ### What a patch with stems says -/

/-- The strings of attributes. -/
def StemAttrs.str (as : StemAttrs) : Attrs := as.map fun kv => (kv.1, kv.2.asStr)

mutual
/-- The content with plain strings. -/
def StemContent.str : StemContent → InsertContent
  | .element tag attrs children => .element tag (StemAttrs.str attrs) (strL children)
  | .text s => .text s.asStr
  | .comment s => .comment s.asStr
/-- `StemContent.str` for a list. -/
def StemContent.strL : List StemContent → List InsertContent
  | [] => []
  | c :: cs => c.str :: strL cs
end

mutual
/-- Nothing in the content is borrowed. -/
def StemContent.Owned : StemContent → Prop
  | .element _ attrs children => (∀ kv ∈ attrs, kv.2.Owned) ∧ OwnedL children
  | .text s => s.Owned
  | .comment s => s.Owned
/-- `StemContent.Owned` for every element of a list. -/
def StemContent.OwnedL : List StemContent → Prop
  | [] => True
  | c :: cs => c.Owned ∧ OwnedL cs
end

/-- The patch with plain strings: two patches are equal in the code (derived `PartialEq`, with `Stem`
compared by `as_str`) exactly if these are. -/
def StemPatch.str : StemPatch → Patch
  | .insertElement at_ tag attrs children slot =>
    .insertElement at_ tag (StemAttrs.str attrs) (StemContent.strL children) slot
  | .insertText at_ text slot => .insertText at_ text.asStr slot
  | .insertComment at_ text slot => .insertComment at_ text.asStr slot
  | .remove node => .remove node
  | .setText path text => .setText path text.asStr
  | .setAttribute path name value => .setAttribute path name value.asStr
  | .removeAttribute path name => .removeAttribute path name
  | .move from_ to slot => .move from_ to slot
  | .updateProps path changes => .updateProps path (changes.map fun c => ⟨c.name, c.value.map Stem.asStr⟩)
  | .opaqueChanged path content => .opaqueChanged path content.asStr

/-- Nothing in the patch is borrowed. -/
def StemPatch.Owned : StemPatch → Prop
  | .insertElement _ _ attrs children _ => (∀ kv ∈ attrs, kv.2.Owned) ∧ StemContent.OwnedL children
  | .insertText _ text _ => text.Owned
  | .insertComment _ text _ => text.Owned
  | .setText _ text => text.Owned
  | .setAttribute _ _ value => value.Owned
  | .updateProps _ changes => ∀ c ∈ changes, ∀ s, c.value = some s → s.Owned
  | .opaqueChanged _ content => content.Owned
  | _ => True

theorem Stem.asStr_intoOwned (s : Stem) : s.intoOwned.asStr = s.asStr := by cases s <;> rfl
theorem Stem.owned_intoOwned (s : Stem) : s.intoOwned.Owned := by cases s <;> exact trivial

theorem StemAttrs.str_intoOwned (as : StemAttrs) : (StemAttrs.intoOwned as).str = StemAttrs.str as := by
  simp [StemAttrs.str, StemAttrs.intoOwned, Stem.asStr_intoOwned]

theorem StemAttrs.owned_intoOwned (as : StemAttrs) : ∀ kv ∈ StemAttrs.intoOwned as, kv.2.Owned := by
  intro kv h
  obtain ⟨x, _, rfl⟩ := List.mem_map.1 h
  exact Stem.owned_intoOwned _

mutual
theorem StemContent.intoOwned_spec : ∀ c : StemContent, c.intoOwned.str = c.str ∧ c.intoOwned.Owned
  | .element tag attrs children => by
    have h := intoOwnedL_spec children
    simp only [StemContent.intoOwned, StemContent.str, StemContent.Owned, StemAttrs.str_intoOwned, h.1, true_and]
    exact ⟨StemAttrs.owned_intoOwned attrs, h.2⟩
  | .text s => ⟨by simp [StemContent.intoOwned, StemContent.str, Stem.asStr_intoOwned],
      by simp [StemContent.intoOwned, StemContent.Owned, Stem.owned_intoOwned]⟩
  | .comment s => ⟨by simp [StemContent.intoOwned, StemContent.str, Stem.asStr_intoOwned],
      by simp [StemContent.intoOwned, StemContent.Owned, Stem.owned_intoOwned]⟩
theorem StemContent.intoOwnedL_spec : ∀ cs : List StemContent,
    strL (intoOwnedL cs) = strL cs ∧ OwnedL (intoOwnedL cs)
  | [] => ⟨rfl, trivial⟩
  | c :: cs => by
    have h1 := intoOwned_spec c
    have h2 := intoOwnedL_spec cs
    simp only [StemContent.intoOwnedL, StemContent.strL, StemContent.OwnedL, h1.1, h2.1, true_and]
    exact ⟨h1.2, h2.2⟩
end

/-- **C35**, first part: `into_owned` gives a patch that is equal to the original and borrows nothing. -/
theorem C35_into_owned (p : StemPatch) : p.intoOwned.str = p.str ∧ p.intoOwned.Owned := by
  cases p <;> simp [StemPatch.intoOwned, StemPatch.str, StemPatch.Owned, Stem.asStr_intoOwned,
    Stem.owned_intoOwned, StemAttrs.str_intoOwned, StemContent.intoOwnedL_spec,
    StemChange.intoOwned]
  · intro a b h
    exact StemAttrs.owned_intoOwned _ _ h
  · intro a _
    cases a.value <;> simp [Stem.asStr_intoOwned]

/-- A patch with borrowed strings at several depths. -/
example : ¬ (StemPatch.insertElement [0, 1] "p".toList [(⟨none, [], "id".toList⟩, .borrowed "x".toList)]
    [.element "b".toList [] [.text (.borrowed "y".toList)]] none).Owned := by
  simp [StemPatch.Owned, Stem.Owned]

/-- **C35**, second part: a name that is converted to its wire form and back is the same name, except
that an empty prefix becomes no prefix. It is written the same way unless the prefix was empty, and
sending it again changes nothing. -/
theorem C35_names (q : QualName) :
    (q.prefix_ ≠ some [] → q.wire = q) ∧
    (q.prefix_ = some [] → q.wire = { q with prefix_ := none }) ∧
    q.wire.ns = q.ns ∧ q.wire.loc = q.loc ∧ q.wire.prefix_ ≠ some [] ∧ q.wire.wire = q.wire := by
  obtain ⟨p, ns, loc⟩ := q
  cases p with
  | none => simp [QualName.wire, QualName.toProxy, QualNameProxy.toName]
  | some p => cases p <;> simp [QualName.wire, QualName.toProxy, QualNameProxy.toName]

/-- No name is sent with an empty prefix, and no name that is received has one. -/
theorem C35_no_empty_prefix (q : QualName) (p : QualNameProxy) :
    q.toProxy.prefix_ ≠ some [] ∧ p.toName.prefix_ ≠ some [] := by
  obtain ⟨a, _, _⟩ := q
  obtain ⟨b, _, _⟩ := p
  constructor
  · rcases a with _ | (_ | _) <;> simp [QualName.toProxy]
  · rcases b with _ | (_ | _) <;> simp [QualNameProxy.toName]

/-- **C35**: `push_str` appends to the text, and the result borrows nothing. -/
theorem C35_push_str (st : Stem) (s : Str) : (st.pushStr s).asStr = st.asStr ++ s ∧ (st.pushStr s).Owned := by
  cases st <;> exact ⟨rfl, trivial⟩

/-- Two names have the same wire form only if they differ at most by an empty prefix. -/
theorem C35_names_injective (q r : QualName) (h : q.toProxy = r.toProxy) :
    q = r ∨ (q.ns = r.ns ∧ q.loc = r.loc ∧
      (q.prefix_ = some [] ∧ r.prefix_ = none ∨ q.prefix_ = none ∧ r.prefix_ = some [])) := by
  obtain ⟨p, ns, loc⟩ := q
  obtain ⟨p', ns', loc'⟩ := r
  simp only [QualName.toProxy, QualNameProxy.mk.injEq] at h
  obtain ⟨h, rfl, rfl⟩ := h
  cases p with
  | none => cases p' with
    | none => simp
    | some p' => cases p' <;> simp_all [Option.filter]
  | some p => cases p' with
    | none => cases p <;> simp_all [Option.filter]
    | some p' => cases p <;> cases p' <;> simp_all [Option.filter]

/-! ### C45: patches sent over the wire -/

theorem QualName.wire_eq {q : QualName} (h : q.prefix_ ≠ some []) : q.wire = q := (C35_names q).1 h

theorem Attrs.wire_eq {as : Attrs} (h : ∀ kv ∈ as, kv.1.prefix_ ≠ some []) : as.wire = as := by
  unfold Attrs.wire
  conv => rhs; rw [← List.map_id as]
  apply List.map_congr_left
  intro kv hkv
  rw [QualName.wire_eq (h kv hkv)]; rfl

theorem InsertContent.wireL_eq {cs : List InsertContent} (h : ∀ c ∈ cs, c.wire = c) :
    InsertContent.wireL cs = cs := by
  induction cs with
  | nil => rfl
  | cons c cs ih =>
    rw [InsertContent.wireL, h c (by simp), ih fun c hc => h c (by simp [hc])]

variable {H : Type} [DecidableEq H] {hashNode : HKind → Option Str → List H → H}
  {old new : Document} {ob nb : Nat}

/-- No attribute has an empty (as opposed to no) prefix. -/
def Document.NoEmptyPrefix (D : Document) : Prop :=
  ∀ n tag attrs, (D.arena.data n).kind = .element tag attrs → ∀ kv ∈ attrs, kv.1.prefix_ ≠ some []

theorem Document.NoEmptyPrefix.props (h : new.NoEmptyPrefix) (n : Nat) :
    ∀ kv ∈ ((diffable new).data n).props, kv.1.prefix_ ≠ some [] := by
  intro kv hkv
  change kv ∈ (tdataOf (new.arena.data n)).props at hkv
  cases ek : (new.arena.data n).kind with
  | element tag attrs =>
    simp only [tdataOf, ek] at hkv
    exact h n tag attrs ek kv hkv
  | _ => simp [tdataOf, ek] at hkv

theorem foldF_mem {α β : Type} {A : Arena α} {alg : Nat → List β → β} {P : β → Prop}
    (h : ∀ n rs, (∀ r ∈ rs, P r) → P (alg n rs)) (k n : Nat) : P (A.foldF alg k n) := by
  induction k generalizing n with
  | zero => exact h _ _ (by simp)
  | succ k ih =>
    refine h _ _ fun r hr => ?_
    obtain ⟨m, _, rfl⟩ := List.mem_map.1 hr
    exact ih m

theorem extractChildren_wire {B : Arena TData} (hB : ∀ n, ∀ kv ∈ (B.data n).props, kv.1.prefix_ ≠ some [])
    (skip : Nat → Bool) (n : Nat) : ∀ c ∈ extractChildren B skip n, c.wire = c := by
  intro c hc
  obtain ⟨m, _, hm⟩ := List.mem_filterMap.1 hc
  have key : ∀ c, B.fold (extractAlg B skip) m = some c → c.wire = c := by
    refine foldF_mem (P := fun r : Option InsertContent => ∀ c, r = some c → c.wire = c) ?_ _ _
    intro n rs hrs c hc
    unfold extractAlg at hc
    split at hc
    · cases hc
    · injection hc with hc
      subst hc
      split
      · rw [InsertContent.wire, Attrs.wire_eq (hB n), InsertContent.wireL_eq]
        intro c hc
        obtain ⟨r, hr, e⟩ := List.mem_filterMap.1 hc
        exact hrs r hr c e
      · rfl
      · rfl
  exact key c hm

theorem insertContent_wire (hB : new.NoEmptyPrefix) (n : Nat) :
    ∀ c, new.arena.fold (insertContentAlg new.arena) n = some c → c.wire = c := by
  refine foldF_mem (P := fun r : Option InsertContent => ∀ c, r = some c → c.wire = c) ?_ _ _
  intro n rs hrs c hc
  unfold insertContentAlg at hc
  split at hc
  · next tag attrs ek =>
    injection hc with hc
    subst hc
    rw [InsertContent.wire, Attrs.wire_eq (hB n tag attrs ek), InsertContent.wireL_eq]
    intro c hc
    obtain ⟨r, hr, e⟩ := List.mem_filterMap.1 hc
    exact hrs r hr c e
  · injection hc with hc; subst hc; rfl
  · injection hc with hc; subst hc; rfl
  · cases hc

/-- The names in an operation have no empty prefix. -/
def EditOp.Plain : EditOp → Prop
  | .updateProps _ _ changes => ∀ c ∈ changes, ∀ q, c.key = .attr q → q.prefix_ ≠ some []
  | _ => True

theorem reparentChildren_wire {S S' : Shadow} {n : Nat} {ps : List Patch}
    (h : reparentChildren S n = .ok (S', ps)) : ∀ P ∈ ps, P.wire = P := by
  unfold reparentChildren at h
  split at h
  · cases h
  · next p _ =>
    simp only at h
    generalize (S.arena.children n).zipIdx.reverse = l at h
    generalize Arena.posIn (S.arena.children p) n = pos at h
    suffices ∀ (l : List (Nat × Nat)) (S : Shadow) (out : List Patch), (∀ P ∈ out, P.wire = P) →
        ∀ S' ps, l.foldlM (fun (x : Shadow × List Patch) (ci : Nat × Nat) => do
          let (S, patch) ← reparentChild p pos x.1 ci.2 ci.1
          .ok (S, x.2 ++ [patch])) (S, out) = Except.ok (ε := Err) (S', ps) → ∀ P ∈ ps, P.wire = P from
      this l S [] (by simp) S' ps h
    intro l
    induction l with
    | nil =>
      intro S out ho S' ps h
      cases h; exact ho
    | cons ci l ih =>
      intro S out ho S' ps h
      rw [List.foldlM_cons] at h
      obtain ⟨v, h1, h2⟩ := res_bind h
      obtain ⟨v1, h3, h4⟩ := res_bind h1
      cases h4
      refine ih _ _ ?_ _ _ h2
      intro P hP
      rcases List.mem_append.1 hP with hP | hP
      · exact ho P hP
      · simp only [List.mem_singleton] at hP
        subst hP
        unfold reparentChild at h3
        obtain ⟨u, _, h5⟩ := res_bind h3
        simp only at h5
        split at h5
        · obtain ⟨u', _, h6⟩ := res_bind h5
          cases h6; rfl
        · obtain ⟨u', _, h6⟩ := res_bind h5
          cases h6; rfl

theorem convertOp_wire {B : Arena TData} (hB : ∀ n, ∀ kv ∈ (B.data n).props, kv.1.prefix_ ≠ some [])
    {ins : List Nat} {C C' : Conv} {op : EditOp} {ps : List Patch} (ho : op.Plain)
    (h : convertOp B ins C op = .ok (C', ps)) : ∀ P ∈ ps, P.wire = P := by
  cases op with
  | updateProps a b changes =>
    simp only [convertOp, Except.ok.injEq, Prod.mk.injEq] at h
    obtain ⟨_, rfl⟩ := h
    intro P hP
    rw [List.mem_singleton] at hP
    subst hP
    simp only [Patch.wire, List.map_map]
    congr 1
    apply List.map_congr_left
    intro c hc
    simp only [Function.comp]
    congr 1
    cases hk : c.key with
    | text => rfl
    | attr q => simp only [PropKey.wire]; rw [QualName.wire_eq (ho c hc q hk)]
  | setText a b t =>
    simp only [convertOp, Except.ok.injEq, Prod.mk.injEq] at h
    obtain ⟨_, rfl⟩ := h
    intro P hP; rw [List.mem_singleton] at hP; subst hP; rfl
  | insert b pb pos kind =>
    simp only [convertOp] at h
    obtain ⟨sp, _, h⟩ := res_bind h
    obtain ⟨⟨S, slot⟩, _, h⟩ := res_bind h
    simp only [Except.ok.injEq, Prod.mk.injEq] at h
    obtain ⟨_, rfl⟩ := h
    intro P hP; rw [List.mem_singleton] at hP; subst hP
    cases kind with
    | element tag ns =>
      simp only [Patch.wire]
      rw [Attrs.wire_eq (hB b), InsertContent.wireL_eq (extractChildren_wire hB _ b)]
    | text => rfl
    | comment => rfl
  | delete a =>
    simp only [convertOp] at h
    obtain ⟨S, _, h⟩ := res_bind h
    simp only [Except.ok.injEq, Prod.mk.injEq] at h
    obtain ⟨_, rfl⟩ := h
    intro P hP; rw [List.mem_singleton] at hP; subst hP; rfl
  | move a b pb pos =>
    simp only [convertOp] at h
    obtain ⟨sp, _, h⟩ := res_bind h
    split at h
    · obtain ⟨⟨S, pre⟩, h1, h⟩ := res_bind h
      obtain ⟨⟨S', slot⟩, _, h⟩ := res_bind h
      simp only [Except.ok.injEq, Prod.mk.injEq] at h
      obtain ⟨_, rfl⟩ := h
      intro P hP
      rcases List.mem_append.1 hP with hP | hP
      · exact reparentChildren_wire h1 P hP
      · rw [List.mem_singleton] at hP; subst hP; rfl
    · obtain ⟨⟨S, pre⟩, h1, h⟩ := res_bind h
      simp only [Except.ok.injEq, Prod.mk.injEq] at h1
      obtain ⟨⟨S', slot⟩, _, h⟩ := res_bind h
      simp only [Except.ok.injEq, Prod.mk.injEq] at h
      obtain ⟨_, rfl⟩ := h
      intro P hP
      rw [← h1.2, List.nil_append, List.mem_singleton] at hP
      subst hP; rfl

theorem convertLoop_wire {B : Arena TData} (hB : ∀ n, ∀ kv ∈ (B.data n).props, kv.1.prefix_ ≠ some [])
    {ins : List Nat} (ops : List EditOp) :
    ∀ {C C' : Conv} {ps : List Patch}, (∀ op ∈ ops, op.Plain) → convertLoop B ins C ops = .ok (C', ps) →
      ∀ P ∈ ps, P.wire = P := by
  induction ops with
  | nil => intro C C' ps _ h; cases h; intro P hP; cases hP
  | cons op ops ih =>
    intro C C' ps ho h
    obtain ⟨v, h1, h⟩ := res_bind h
    obtain ⟨v', h2, h⟩ := res_bind h
    cases h
    intro P hP
    rcases List.mem_append.1 hP with hP | hP
    · exact convertOp_wire hB (ho op (by simp)) h1 P hP
    · exact ih (fun op hop => ho op (by simp [hop])) h2 P hP

theorem script_plain {A B : Arena TData} {nb : Nat} {M : Matching}
    (hB : ∀ n, ∀ kv ∈ (B.data n).props, kv.1.prefix_ ≠ some []) :
    ∀ op ∈ generateEditScript (DiffTree.ofArena hashNode A 0) (DiffTree.ofArena hashNode B nb) M,
      op.Plain := by
  intro op hop
  simp only [generateEditScript, List.mem_append] at hop
  rcases hop with ((hop | hop) | hop) | hop
  · obtain ⟨⟨a, b⟩, hab, hop⟩ := List.mem_flatMap.1 hop
    split at hop
    · cases hop
    · rcases List.mem_append.1 hop with hop | hop
      · unfold textOps at hop
        split at hop
        · cases hop
        · split at hop
          · rw [List.mem_singleton] at hop; subst hop; trivial
          · cases hop
      · unfold propOps at hop
        split at hop
        · cases hop
        · simp only at hop
          split at hop
          · rw [List.mem_singleton] at hop; subst hop
            exact diffLoop_names (N := fun q => q.prefix_ ≠ some []) _ _ (hB b) _
          · cases hop
  · obtain ⟨b, hb, hop⟩ := List.mem_flatMap.1 hop
    split at hop
    · cases hop
    · split at hop
      · cases hop
      · split at hop
        · cases hop
        · rw [List.mem_singleton] at hop; subst hop; trivial
  · obtain ⟨⟨a, b⟩, hab, hop⟩ := List.mem_flatMap.1 hop
    unfold moveOp at hop
    split at hop
    · cases hop
    · split at hop
      · split at hop
        · rw [List.mem_singleton] at hop; subst hop; trivial
        · split at hop
          · rw [List.mem_singleton] at hop; subst hop; trivial
          · cases hop
      · cases hop
  · obtain ⟨b, hb, hop⟩ := List.mem_flatMap.1 hop
    split at hop
    · cases hop
    · split at hop
      · cases hop
      · rw [List.mem_singleton] at hop; subst hop; trivial

/-- **C45**: if no attribute of the new document has an empty prefix, the patches of a diff arrive
unchanged when they are sent over the wire. This holds for any two documents. -/
theorem C45_patches_arrive_unchanged_partial (old : Document) (hn : new.NoEmptyPrefix) {ps : List Patch}
    (h : diff hashNode old new = .ok ps) : ps.map Patch.wire = ps := by
  suffices ∀ P ∈ ps, P.wire = P by
    conv => rhs; rw [← List.map_id ps]
    exact List.map_congr_left this
  unfold diff at h
  split at h
  · cases h; simp
  · next nb _ _ =>
    suffices ∀ (l : List Nat) (pos : Nat) ps, insertAllLoop new.arena pos l = .ok ps →
        ∀ P ∈ ps, P.wire = P from this _ _ _ h
    intro l
    induction l with
    | nil => intro pos ps h; cases h; simp
    | cons c l ih =>
      intro pos ps h
      obtain ⟨p, h1, h⟩ := res_bind h
      obtain ⟨qs, h2, h⟩ := res_bind h
      cases h
      intro P hP
      rcases List.mem_cons.1 hP with rfl | hP
      · unfold createInsertPatch at h1
        split at h1
        · next tag attrs ek =>
          cases h1
          simp only [Patch.wire]
          rw [Attrs.wire_eq (hn c tag attrs ek), InsertContent.wireL_eq]
          intro x hx
          obtain ⟨m, _, e⟩ := List.mem_filterMap.1 hx
          exact insertContent_wire hn m x e
        · cases h1; rfl
        · cases h1; rfl
        · cases h1
      · exact ih _ _ h2 P hP
  · cases h
    intro P hP
    obtain ⟨i, _, rfl⟩ := List.mem_map.1 hP
    rfl
  · split at h
    · cases h
    · simp only at h
      obtain ⟨qs, h1, h⟩ := res_bind h
      obtain ⟨rs, h2, h⟩ := res_bind h
      cases h
      intro P hP
      rcases List.mem_append.1 hP with hP | hP
      · unfold convertOps at h1
        obtain ⟨S, _, h1⟩ := res_bind h1
        obtain ⟨v, h3, h1⟩ := res_bind h1
        cases h1
        exact convertLoop_wire hn.props _ (script_plain hn.props) h3 P hP
      · unfold opaquePatches at h2
        split at h2
        · cases h2; cases hP
        · obtain ⟨S, _, h2⟩ := res_bind h2
          cases h2
          obtain ⟨c, _, rfl⟩ := List.mem_map.1 hP
          rfl

/-- An `<svg>` with an `xmlns` attribute that has an empty prefix (as html5ever's adjustment of foreign
attributes gives it) and a class. -/
def xmlnsDoc (cls : String) : Document := .ofForest
  [.element "svg".toList [(⟨some [], "xmlns".toList, "xmlns".toList⟩, "u".toList),
      (⟨none, [], "class".toList⟩, cls.toList)]
    [ex "u" [] [], ex "v" [] [], ex "w" [] []]]

/-- **C45 is violated** for names with an empty prefix: here the class changes and the `xmlns`
attribute is to be kept. Applied directly, the patches keep its value. Applied after being sent over the
wire, the kept value is looked up under a name that the old element does not have, and is lost. -/
theorem C45_violated : (match diff Shape.node (xmlnsDoc "a") (xmlnsDoc "b") with
    | .ok ps => match applyPatches (fun _ => .ofForest []) (xmlnsDoc "a") ps,
        applyPatches (fun _ => .ofForest []) (xmlnsDoc "a") (ps.map Patch.wire) with
      | .ok D, .ok E => decide (D.toBodyHtml = (xmlnsDoc "b").toBodyHtml ∧
        (D.arena.data 3).kind = .element "svg".toList
          [(⟨some [], "xmlns".toList, "xmlns".toList⟩, "u".toList), (⟨none, [], "class".toList⟩, ['b'])] ∧
        (E.arena.data 3).kind = .element "svg".toList
          [(⟨none, "xmlns".toList, "xmlns".toList⟩, []), (⟨none, [], "class".toList⟩, ['b'])])
      | _, _ => false
    | .error _ => false) = true := by decide +kernel

/-- The hypothesis of `C45_patches_arrive_unchanged_partial` holds for a document with prefixed and
unprefixed names. -/
example : (Document.ofForest [.element "svg".toList
    [(⟨some "xlink".toList, "x".toList, "href".toList⟩, "u".toList), (⟨none, [], "class".toList⟩, [])]
      [ex "u" [("id", "k")] []]]).NoEmptyPrefix := by
  intro n tag attrs h
  match n with
  | 0 => cases h; simp
  | 1 => cases h; simp
  | 2 => cases h; simp
  | 3 => cases h; simp
  | 4 => cases h; simp
  | n + 5 => cases h

end Hotmeal
