import Verif.Lemmas.MirrorHtml
import Verif.Lemmas.WebDom

set_option autoImplicit false
set_option linter.unusedSectionVars false

/-!
# Names in generated patches

Every tag and every attribute name in the patches of a diff occurs in the new document.
-/

namespace Hotmeal

variable {T : Str → Prop} {Q : QualName → Prop}

/-- The names of a node of a diff tree. -/
def TData.All (T : Str → Prop) (Q : QualName → Prop) (d : TData) : Prop :=
  (∀ tag ns, d.kind = .element tag ns → T tag) ∧ ∀ kv ∈ d.props, Q kv.1

/-- All names that an operation puts into a patch satisfy `T` or `Q`. -/
def EditOp.All (T : Str → Prop) (Q : QualName → Prop) (B : Arena TData) : EditOp → Prop
  | .updateProps _ _ changes => ∀ c ∈ changes, ∀ q, c.key = .attr q → Q q
  | .insert b _ _ kind => (∀ tag ns, kind = .element tag ns → T tag) ∧
    ∀ n, B.Anc b n → (B.data n).All T Q
  | _ => True

theorem InsertContent.allL_of {cs : List InsertContent} (h : ∀ c ∈ cs, c.All T Q) : AllL T Q cs := by
  induction cs with
  | nil => trivial
  | cons c cs ih => exact ⟨h c (by simp), ih fun c hc => h c (by simp [hc])⟩

theorem extractChildren_all {B : Arena TData} (hB : B.WF) (skip : Nat → Bool) {b : Nat}
    (h : ∀ n, B.Anc b n → (B.data n).All T Q) : InsertContent.AllL T Q (extractChildren B skip b) := by
  have key : ∀ n, B.Anc b n → ∀ c, B.fold (extractAlg B skip) n = some c → c.All T Q := by
    intro n
    refine hB.induct_down (P := fun n => B.Anc b n →
      ∀ c, B.fold (extractAlg B skip) n = some c → c.All T Q) ?_ n
    intro n ih hn c hc
    rw [hB.fold_eq, extractAlg] at hc
    split at hc
    · cases hc
    · injection hc with hc
      subst hc
      split
      · next tag ns ek =>
        refine ⟨(h n hn).1 tag ns ek, (h n hn).2, InsertContent.allL_of fun c hc => ?_⟩
        obtain ⟨r, hr, e⟩ := List.mem_filterMap.1 hc
        obtain ⟨m, hm, rfl⟩ := List.mem_map.1 hr
        exact ih m hm (.step ((hB.mem_iff _ _).1 hm) hn) c e
      · trivial
      · trivial
  refine InsertContent.allL_of fun c hc => ?_
  obtain ⟨m, hm, e⟩ := List.mem_filterMap.1 hc
  exact key m (.step ((hB.mem_iff _ _).1 hm) .refl) c e

theorem reparentChildren_all {S S' : Shadow} {n : Nat} {ps : List Patch}
    (h : reparentChildren S n = .ok (S', ps)) : ∀ P ∈ ps, P.All T Q := by
  unfold reparentChildren at h
  split at h
  · cases h
  · next p _ =>
    simp only at h
    generalize (S.arena.children n).zipIdx.reverse = l at h
    generalize Arena.posIn (S.arena.children p) n = pos at h
    suffices ∀ (l : List (Nat × Nat)) (S : Shadow) (out : List Patch), (∀ P ∈ out, P.All T Q) →
        ∀ S' ps, l.foldlM (fun (x : Shadow × List Patch) (ci : Nat × Nat) => do
          let (S, patch) ← reparentChild p pos x.1 ci.2 ci.1
          .ok (S, x.2 ++ [patch])) (S, out) = Except.ok (ε := Err) (S', ps) → ∀ P ∈ ps, P.All T Q from
      this l S [] (by simp) S' ps h
    intro l
    induction l with
    | nil =>
      intro S out ho S' ps h
      cases h; exact ho
    | cons ci l ih =>
      intro S out ho S' ps h
      rw [List.foldlM_cons] at h
      obtain ⟨v, h1, h2⟩ := res_bind h
      obtain ⟨v1, h3, h4⟩ := res_bind h1
      cases h4
      refine ih _ _ ?_ _ _ h2
      intro P hP
      rcases List.mem_append.1 hP with hP | hP
      · exact ho P hP
      · simp only [List.mem_singleton] at hP
        subst hP
        unfold reparentChild at h3
        obtain ⟨u, _, h5⟩ := res_bind h3
        simp only at h5
        split at h5
        · obtain ⟨u', _, h6⟩ := res_bind h5
          cases h6; trivial
        · obtain ⟨u', _, h6⟩ := res_bind h5
          cases h6; trivial

theorem convertOp_all {B : Arena TData} (hB : B.WF) {ins : List Nat} {C C' : Conv} {op : EditOp}
    {ps : List Patch} (ho : op.All T Q B) (h : convertOp B ins C op = .ok (C', ps)) :
    ∀ P ∈ ps, P.All T Q := by
  cases op with
  | updateProps a b changes =>
    simp only [convertOp, Except.ok.injEq, Prod.mk.injEq] at h
    obtain ⟨_, rfl⟩ := h
    intro P hP
    rw [List.mem_singleton] at hP
    subst hP
    intro c hc q hq
    obtain ⟨c', hc', rfl⟩ := List.mem_map.1 hc
    exact ho c' hc' q hq
  | setText a b t =>
    simp only [convertOp, Except.ok.injEq, Prod.mk.injEq] at h
    obtain ⟨_, rfl⟩ := h
    intro P hP; rw [List.mem_singleton] at hP; subst hP; trivial
  | insert b pb pos kind =>
    simp only [convertOp] at h
    obtain ⟨sp, _, h⟩ := res_bind h
    obtain ⟨⟨S, slot⟩, _, h⟩ := res_bind h
    simp only [Except.ok.injEq, Prod.mk.injEq] at h
    obtain ⟨_, rfl⟩ := h
    intro P hP; rw [List.mem_singleton] at hP; subst hP
    cases kind with
    | element tag ns =>
      exact ⟨ho.1 tag ns rfl, (ho.2 b .refl).2, extractChildren_all hB _ ho.2⟩
    | text => trivial
    | comment => trivial
  | delete a =>
    simp only [convertOp] at h
    obtain ⟨S, _, h⟩ := res_bind h
    simp only [Except.ok.injEq, Prod.mk.injEq] at h
    obtain ⟨_, rfl⟩ := h
    intro P hP; rw [List.mem_singleton] at hP; subst hP; trivial
  | move a b pb pos =>
    simp only [convertOp] at h
    obtain ⟨sp, _, h⟩ := res_bind h
    split at h
    · obtain ⟨⟨S, pre⟩, h1, h⟩ := res_bind h
      obtain ⟨⟨S', slot⟩, _, h⟩ := res_bind h
      simp only [Except.ok.injEq, Prod.mk.injEq] at h
      obtain ⟨_, rfl⟩ := h
      intro P hP
      rcases List.mem_append.1 hP with hP | hP
      · exact reparentChildren_all h1 P hP
      · rw [List.mem_singleton] at hP; subst hP; trivial
    · obtain ⟨⟨S, pre⟩, h1, h⟩ := res_bind h
      simp only [Except.ok.injEq, Prod.mk.injEq] at h1
      obtain ⟨⟨S', slot⟩, _, h⟩ := res_bind h
      simp only [Except.ok.injEq, Prod.mk.injEq] at h
      obtain ⟨_, rfl⟩ := h
      intro P hP
      rw [← h1.2, List.nil_append, List.mem_singleton] at hP
      subst hP; trivial

theorem convertLoop_all {B : Arena TData} (hB : B.WF) {ins : List Nat} (ops : List EditOp) :
    ∀ {C C' : Conv} {ps : List Patch}, (∀ op ∈ ops, op.All T Q B) →
      convertLoop B ins C ops = .ok (C', ps) → ∀ P ∈ ps, P.All T Q := by
  induction ops with
  | nil => intro C C' ps _ h; cases h; intro P hP; cases hP
  | cons op ops ih =>
    intro C C' ps ho h
    obtain ⟨v, h1, h⟩ := res_bind h
    obtain ⟨v', h2, h⟩ := res_bind h
    cases h
    intro P hP
    rcases List.mem_append.1 hP with hP | hP
    · exact convertOp_all hB (ho op (by simp)) h1 P hP
    · exact ih (fun op hop => ho op (by simp [hop])) h2 P hP

theorem diffLoop_all (o : Attrs) (od : Bool) {new : Attrs} (h : ∀ kv ∈ new, Q kv.1) (forced : Bool) :
    ∀ c ∈ o.diffLoop od forced new, ∀ q, c.key = .attr q → Q q := by
  induction new generalizing forced with
  | nil => intro c hc; cases hc
  | cons kv rest ih =>
    obtain ⟨k, v⟩ := kv
    intro c hc q hq
    simp only [Attrs.diffLoop] at hc
    rcases List.mem_cons.1 hc with rfl | hc
    · simp only [PropKey.attr.injEq] at hq
      rw [← hq]; exact h (k, v) (by simp)
    · exact ih (fun kv hkv => h kv (by simp [hkv])) _ c hc q hq

variable {H : Type} [DecidableEq H] {hashNode : HKind → Option Str → List H → H}
  {old new : Document} {ob nb : Nat}

theorem script_all {A B : Arena TData} {nb : Nat} {M : Matching} (hp : Plan A B nb M)
    (hB : ∀ b, B.Anc nb b → (B.data b).All T Q) :
    ∀ op ∈ generateEditScript (DiffTree.ofArena hashNode A 0) (DiffTree.ofArena hashNode B nb) M,
      op.All T Q B := by
  intro op hop
  simp only [generateEditScript, List.mem_append] at hop
  rcases hop with ((hop | hop) | hop) | hop
  · obtain ⟨⟨a, b⟩, hab, hop⟩ := List.mem_flatMap.1 hop
    split at hop
    · cases hop
    · rcases List.mem_append.1 hop with hop | hop
      · unfold textOps at hop
        split at hop
        · cases hop
        · split at hop
          · rw [List.mem_singleton] at hop; subst hop; trivial
          · cases hop
      · unfold propOps at hop
        split at hop
        · cases hop
        · simp only at hop
          split at hop
          · rw [List.mem_singleton] at hop; subst hop
            exact diffLoop_all _ _ (hB b (hp.lt a b hab).2).2 _
          · cases hop
  · obtain ⟨b, hb, hop⟩ := List.mem_flatMap.1 hop
    have hanc := (hp.bw.mem_descendants nb b).1 hb
    split at hop
    · cases hop
    · split at hop
      · cases hop
      · split at hop
        · cases hop
        · rw [List.mem_singleton] at hop; subst hop
          exact ⟨(hB b hanc).1, fun n hn => hB n (hanc.trans hn)⟩
  · obtain ⟨⟨a, b⟩, hab, hop⟩ := List.mem_flatMap.1 hop
    unfold moveOp at hop
    split at hop
    · cases hop
    · split at hop
      · split at hop
        · rw [List.mem_singleton] at hop; subst hop; trivial
        · split at hop
          · rw [List.mem_singleton] at hop; subst hop; trivial
          · cases hop
      · cases hop
  · obtain ⟨b, hb, hop⟩ := List.mem_flatMap.1 hop
    split at hop
    · cases hop
    · split at hop
      · cases hop
      · rw [List.mem_singleton] at hop; subst hop; trivial

/-- All tags below `b` satisfy `T` and all attribute names below `b` satisfy `Q`. -/
def Document.AllIn (T : Str → Prop) (Q : QualName → Prop) (D : Document) (b : Nat) : Prop :=
  ∀ n tag attrs, D.arena.Anc b n → (D.arena.data n).kind = .element tag attrs →
    T tag ∧ ∀ kv ∈ attrs, Q kv.1

/-- Every name in the patches of a diff satisfies what the names of the new document satisfy. -/
theorem Comparable.diff_all (h : Comparable old new ob nb)
    (hc : NoCollision hashNode (buildTree old ob) (diffable new) nb)
    (ho : OpaqueAgree hashNode old new ob nb) (hn : new.AllIn T Q nb) {ps : List Patch}
    (hd : diff hashNode old new = .ok ps) : ∀ P ∈ ps, P.All T Q := by
  obtain ⟨g0, hb0⟩ := buildTree_spec old h.old.sound.arena.leafy ob
  have hs := script_all (T := T) (Q := Q) (hashNode := hashNode) (h.plan hashNode hc ho hb0) (by
    intro b hb
    have ha := anc_of_diffable hb
    show (tdataOf (new.arena.data b)).All T Q
    cases ek : (new.arena.data b).kind with
    | element tag attrs =>
      have := hn b tag attrs ha ek
      refine ⟨fun tag' ns e => ?_, ?_⟩
      · simp only [tdataOf, ek] at e
        cases e; exact this.1
      · simp only [tdataOf, ek]
        exact this.2
    | _ => simp [tdataOf, ek, TData.All])
  unfold diff at hd
  rw [h.old.body, h.new.body] at hd
  simp only at hd
  split at hd
  · cases hd
  · obtain ⟨qs, h1, hd⟩ := res_bind hd
    obtain ⟨rs, h2, hd⟩ := res_bind hd
    cases hd
    intro P hP
    rcases List.mem_append.1 hP with hP | hP
    · unfold convertOps at h1
      obtain ⟨S, _, h1⟩ := res_bind h1
      obtain ⟨v, h3, h1⟩ := res_bind h1
      cases h1
      exact convertLoop_all (Built.diffable_wf h.new.sound.arena.wf) _ hs h3 P hP
    · unfold opaquePatches at h2
      split at h2
      · cases h2; cases hP
      · obtain ⟨S, _, h2⟩ := res_bind h2
        cases h2
        obtain ⟨c, _, rfl⟩ := List.mem_map.1 hP
        trivial

end Hotmeal
