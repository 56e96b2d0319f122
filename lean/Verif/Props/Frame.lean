import Verif.Lemmas.ConvertLoop
import Verif.Props.NoBody
import Verif.Props.Apply

set_option autoImplicit false
set_option linter.unusedSectionVars false

/-!
# C06, C48: diff is total, and its patches stay inside the body

Nothing is assumed here about hashes, about opaque elements or about the order of Moves: the
statements also cover the document pairs for which the round trip fails.
-/

namespace Hotmeal

variable {H : Type} [DecidableEq H] {hashNode : HKind → Option Str → List H → H}
  {old new : Document} {ob : Nat}

/-! ### C48 -/

theorem insertAllLoop_ok {D : Arena NodeData} (h : D.Sound) :
    ∀ (cs : List Nat) (pos : Nat), (∀ c ∈ cs, ∃ p, D.parent c = some p) →
      ∃ ps, insertAllLoop D pos cs = .ok ps ∧ ∀ P ∈ ps, P.SparesRoot := by
  intro cs
  induction cs with
  | nil => intro pos _; exact ⟨[], rfl, by simp⟩
  | cons c cs ih =>
    intro pos hcs
    obtain ⟨p, hp⟩ := hcs c (by simp)
    obtain ⟨x, _, _, hx⟩ := insertContent_html h c (h.nodoc c p hp)
    obtain ⟨ps, e, hq⟩ := ih (pos + 1) fun c hc => hcs c (List.mem_cons_of_mem _ hc)
    refine ⟨contentPatch [0, pos] x :: ps, by simp only [insertAllLoop, bind, Except.bind, hx pos, e], ?_⟩
    intro P hP
    rcases List.mem_cons.1 hP with rfl | h
    · cases x <;> exact fun e => by cases e
    · exact hq P h

/-- The bodies, if both documents have one, are in the same namespace. html5ever creates every body
element in the HTML namespace. -/
def SameBodyNs (old new : Document) : Prop :=
  ∀ ob nb, old.body = some ob → new.body = some nb → (old.arena.data ob).ns = (new.arena.data nb).ns

theorem diff_ok (hold : old.Sound) (hnew : new.Sound) :
    ∃ ps, diff hashNode old new = .ok ps ∧ (SameBodyNs old new → ∀ P ∈ ps, P.SparesRoot) := by
  unfold diff
  cases ho : old.body with
  | none =>
    cases hn : new.body with
    | none => exact ⟨[], rfl, by simp⟩
    | some nb =>
      obtain ⟨ps, e, hq⟩ := insertAllLoop_ok hnew.arena (new.arena.children nb) 0
        (fun c hc => ⟨nb, (hnew.arena.wf.mem_iff _ _).1 hc⟩)
      exact ⟨ps, e, fun _ => hq⟩
  | some ob =>
    cases hn : new.body with
    | none =>
      refine ⟨_, rfl, fun _ P hP => ?_⟩
      obtain ⟨i, _, rfl⟩ := List.mem_map.1 hP
      exact fun e => by cases e
    | some nb =>
      obtain ⟨hbm, oa, hok⟩ := Document.body_spec ho
      obtain ⟨hnm, na, hnk⟩ := Document.body_spec hn
      have hnp := (hnew.arena.wf.mem_iff _ _).1 hnm
      have hdoc : ((new.arena.descendants nb).any
          fun n => decide ((new.arena.data n).kind = .document)) = false := by
        rw [List.any_eq_false]
        intro n hm
        have ha := (hnew.arena.wf.mem_descendants _ _).1 hm
        have : ∃ p, new.arena.parent n = some p := by
          rcases ha.cases' with e | ⟨q, hq, _⟩
          · exact ⟨_, e ▸ hnp⟩
          · exact ⟨q, hq⟩
        obtain ⟨p, hp⟩ := this
        simpa using hnew.arena.nodoc n p hp
      obtain ⟨g, hb⟩ := buildTree_spec old hold.arena.leafy ob
      have hBw := Built.diffable_wf hnew.arena.wf
      obtain ⟨M, eM, hnd, hc, hin, hroot⟩ := diffMatching_facts (hashNode := hashNode) hb.wf hBw (ra := 0) (rb := nb)
      have hM : ∀ a b, (a, b) ∈ M.pairs → a < (buildTree old ob).next := by
        intro a b hab
        rcases (hin a b hab).1.cases' with e | ⟨q, hq, _⟩
        · rw [← e]; exact hb.pos
        · exact (hb.wf.lt_of_parent _ _ hq).1
      obtain ⟨ps, e, hps⟩ := convertOps_ok (hashNode := hashNode) (nb := nb) hb.wf hBw hb.pos hb.root hb.reach hM hnd hc
      obtain ⟨S, eS, -⟩ := Shadow.new_init hb.wf hb.pos hb.root
      have eM' : diffMatching (oldTree hashNode old ob) (newTree hashNode new nb) = M := eM
      have hop : ∃ qs, opaquePatches (buildTree old ob) 0
          (opaqueChanges (oldTree hashNode old ob) (newTree hashNode new nb) new.arena M) = .ok qs ∧
          ∀ P ∈ qs, P.SparesRoot := by
        unfold opaquePatches
        split
        · exact ⟨[], rfl, by simp⟩
        · simp only [eS, bind, Except.bind]
          refine ⟨_, rfl, ?_⟩
          intro P hP
          obtain ⟨c, _, rfl⟩ := List.mem_map.1 hP
          trivial
      obtain ⟨qs, eq, hqs⟩ := hop
      refine ⟨ps ++ qs, ?_, ?_⟩
      · simp only [hdoc, Bool.false_eq_true, if_false, eM']
        have e' : convertOps (generateEditScript (oldTree hashNode old ob) (newTree hashNode new nb) M)
            (buildTree old ob) 0 (diffable new) M = .ok ps := e
        simp only [e', eq, bind, Except.bind]
      · intro hns P hP
        rcases List.mem_append.1 hP with h | h
        · refine hps (hroot ?_) P h
          rw [hb.rdata]
          show bodyKind old ob = (tdataOf (new.arena.data nb)).kind
          have := hns ob nb ho hn
          simp only [bodyKind, hok, tdataOf, hnk, this]
        · exact hqs P h

/-- **C48.** `diff` of two sound documents returns a patch list: none of its internal errors and
panics can be reached, whatever the hash function and whatever the documents. -/
theorem C48_diff_total (hold : old.Sound) (hnew : new.Sound) : ∃ ps, diff hashNode old new = .ok ps :=
  let ⟨ps, e, _⟩ := diff_ok hold hnew
  ⟨ps, e⟩

/-! ### C06 -/

theorem sealed_init {A : Arena NodeData} (h : A.WF) {b : Nat} (hb : b < A.next) :
    Sealed A b (fun m => m < A.next ∧ ¬ A.Anc b m) A where
  le := Nat.le_refl _
  lt := fun m hm => hm.1
  blt := hb
  bout := fun hm => hm.2 .refl
  parent := fun _ _ => rfl
  children := fun _ _ => rfl
  data := fun _ _ => rfl
  bpar := rfl
  btag := rfl
  up := by
    intro m p hm hne hp hF
    refine hm ⟨(h.lt_of_parent _ _ hp).1, fun ha => ?_⟩
    rcases ha.cases' with e | ⟨q, hq, ha'⟩
    · exact hne e.symm
    · rw [hp] at hq; cases hq; exact hF.2 ha'
  down := by
    intro m c hm hc
    have hp := (h.mem_iff _ _).1 hc
    have ha : A.Anc b m := Classical.byContradiction fun hx => hm ⟨(h.lt_of_parent _ _ hp).2, hx⟩
    refine ⟨fun hF => hF.2 (.step hp ha), ?_⟩
    rintro rfl
    exact h.self_parent_ne hp (h.anc_antisymm (.step hp .refl) ha)

/-- The tree of a node depends only on the nodes below it, even if the second arena is broken
elsewhere. -/
theorem tree_congr_of {A B : Arena NodeData} (hA : A.WF) (hle : A.next ≤ B.next) {n : Nat}
    (h : ∀ m, A.Anc n m → B.children m = A.children m ∧ B.data m = A.data m) : B.tree n = A.tree n := by
  obtain ⟨r, hb, hr⟩ := hA.bounded
  have key : ∀ k m, A.Anc n m → B.foldF (fun n cs => Html.ofKind (B.data n).kind cs) k m =
      A.foldF (fun n cs => Html.ofKind (A.data n).kind cs) k m := by
    intro k
    induction k with
    | zero => intro m hm; simp only [Arena.foldF, (h m hm).2]
    | succ k ih =>
      intro m hm
      simp only [Arena.foldF, (h m hm).2, (h m hm).1]
      congr 1
      apply List.map_congr_left
      intro c hc
      exact ih c (.step ((hA.mem_iff _ _).1 hc) hm)
  unfold Arena.tree Arena.fold
  rw [key _ n .refl]
  exact hA.foldF_stable _ hb hr _ _ _ (by omega) (by omega)

/-- Everything of a document that is not inside its body: what a patched document has to keep.
`b` is the body. -/
structure KeepsOutside (D : Document) (b : Nat) (D' : Document) : Prop where
  doctype : D'.doctype = D.doctype
  root : D'.root = D.root
  body : D'.body = D.body
  head : D'.head = D.head
  /-- The head is the same tree. -/
  headTree : ∀ hd, D.head = some hd → D'.arena.tree hd = D.arena.tree hd
  /-- The body element stays where it is, and stays a body element. -/
  place : D'.arena.parent b = D.arena.parent b
  /-- Every other node outside the body keeps its data and its links. -/
  node : ∀ n, n < D.arena.next → ¬ D.arena.Anc b n → D'.arena.data n = D.arena.data n ∧
    D'.arena.parent n = D.arena.parent n ∧ D'.arena.children n = D.arena.children n

theorem keepsOutside_of_sealed {D : Document} (hw : D.arena.WF) (hb : D.body = some ob) {A : Arena NodeData}
    (h : Sealed D.arena ob (fun m => m < D.arena.next ∧ ¬ D.arena.Anc ob m) A) :
    KeepsOutside D ob { D with arena := A } := by
  obtain ⟨hbm, oa, hok⟩ := Document.body_spec hb
  have hbp := (hw.mem_iff _ _).1 hbm
  have hrootout : D.root < D.arena.next ∧ ¬ D.arena.Anc ob D.root := by
    refine ⟨(hw.lt_of_parent _ _ hbp).2, fun ha => ?_⟩
    exact hw.self_parent_ne hbp (hw.anc_antisymm (.step hbp .refl) ha)
  have hsib : ∀ c, c ∈ D.arena.children D.root → c ≠ ob → c < D.arena.next ∧ ¬ D.arena.Anc ob c := by
    intro c hc' hne
    have hcp := (hw.mem_iff _ _).1 hc'
    refine ⟨(hw.lt_of_parent _ _ hcp).1, fun ha => ?_⟩
    rcases ha.cases' with e | ⟨q, hq, ha'⟩
    · exact hne e.symm
    · rw [hcp] at hq; cases hq; exact hrootout.2 ha'
  have htag : ∀ (n : NodeKind) (t : Str), (match n with | .element tag _ => decide (tag = t) | _ => false) =
      decide (n.tag? = some t) := by
    intro n t; cases n <;> simp [NodeKind.tag?]
  have hfind : ∀ t : Str, (A.children D.root).find? (({ D with arena := A } : Document).hasTag t) =
      (D.arena.children D.root).find? (D.hasTag t) := by
    intro t
    rw [h.children _ hrootout]
    have key : ∀ cs : List Nat, (∀ c ∈ cs, c ∈ D.arena.children D.root) →
        cs.find? (({ D with arena := A } : Document).hasTag t) = cs.find? (D.hasTag t) := by
      intro cs
      induction cs with
      | nil => intro _; rfl
      | cons c cs ih =>
        intro hcs
        have e : ({ D with arena := A } : Document).hasTag t c = D.hasTag t c := by
          by_cases hcb : c = ob
          · subst hcb
            have h1 := h.btag
            rw [hok] at h1
            cases hk : (A.data c).kind with
            | element tag at_ =>
              rw [hk] at h1
              simp only [NodeKind.tag?, Option.some.injEq] at h1
              simp only [Document.hasTag, hk, hok, h1]
            | _ => rw [hk] at h1; cases h1
          · simp only [Document.hasTag, h.data c (hsib c (hcs c (by simp)) hcb)]
        rw [List.find?_cons, List.find?_cons, e, ih (fun c hc => hcs c (List.mem_cons_of_mem _ hc))]
    exact key _ (fun _ h => h)
  refine ⟨rfl, rfl, hfind _, hfind _, ?_, h.bpar, fun n h1 h2 => ⟨h.data n ⟨h1, h2⟩, h.parent n ⟨h1, h2⟩, h.children n ⟨h1, h2⟩⟩⟩
  intro hd hhd
  unfold Document.head at hhd
  have hhm := List.mem_of_find?_eq_some hhd
  have hne : hd ≠ ob := by
    rintro rfl
    have := List.find?_some hhd
    simp [Document.hasTag, hok] at this
  have hout := hsib hd hhm hne
  refine tree_congr_of hw h.le ?_
  intro m hmh
  have : m < D.arena.next ∧ ¬ D.arena.Anc ob m := by
    refine ⟨?_, fun ha => ?_⟩
    · rcases hmh.cases' with e | ⟨q, hq, _⟩
      · rw [← e]; exact hout.1
      · exact (hw.lt_of_parent _ _ hq).1
    · rcases Arena.anc_total ha hmh with h1 | h1
      · exact hout.2 h1
      · rcases h1.cases' with e | ⟨q, hq, h2⟩
        · exact hne e
        · rw [hbp] at hq; cases hq
          have hcp := (hw.mem_iff _ _).1 hhm
          exact hw.self_parent_ne hcp (hw.anc_antisymm (.step hcp .refl) h2)
  exact ⟨h.children m this, h.data m this⟩

/-- **C06**, for arbitrary patch lists: patches that neither remove nor move the body (path `[0]`)
and do not file a displaced node under slot 0 leave everything outside the body alone. This also
holds for the document that a failing list leaves behind. -/
theorem C06_any_patches (parse : Str → Document) {D : Document} (hw : D.arena.WF) (hb : D.body = some ob)
    {ps : List Patch} (hps : ∀ P ∈ ps, P.SparesRoot) :
    KeepsOutside D ob (applyPatchesKeep parse D ps).1 := by
  have hbm := (Document.body_spec hb).1
  have hlt := (hw.lt_of_parent _ _ ((hw.mem_iff _ _).1 hbm)).1
  have hs := sealed_init hw hlt
  unfold applyPatchesKeep
  split
  · exact keepsOutside_of_sealed hw hb hs
  · have e : initSlots D = (D, Arena.upd (fun _ => none) 0 (some ob)) := by
      unfold initSlots Document.ensureBody; rw [hb]
    rw [e]
    refine keepsOutside_of_sealed hw hb (hs.applyKeep parse (slots := Arena.upd (fun _ => none) 0 (some ob)) ⟨?_, ?_⟩ hps)
    · exact Arena.upd_same ..
    · intro k n hk hn
      rw [Arena.upd_ne _ _ hk] at hn; cases hn

/-- **C06.** Applying `diff old new` to `old` keeps doctype, root, body element, head and every node
outside the body — also when a patch fails half way. -/
theorem C06_outside_untouched (parse : Str → Document) (hold : old.Sound) (hnew : new.Sound)
    (hb : old.body = some ob) (hns : SameBodyNs old new) :
    ∃ ps, diff hashNode old new = .ok ps ∧ KeepsOutside old ob (applyPatchesKeep parse old ps).1 := by
  obtain ⟨ps, e, hq⟩ := diff_ok (hashNode := hashNode) hold hnew
  exact ⟨ps, e, C06_any_patches parse hold.arena.wf hb (hq hns)⟩

/-- What a document without body keeps: everything but the children of the root, which get one new
node, the body, at the end. -/
structure GainsBody (D D' : Document) : Prop where
  doctype : D'.doctype = D.doctype
  root : D'.root = D.root
  gain : D'.arena.children D.root = D.arena.children D.root ++ [D.arena.next]
  tag : ∃ attrs, (D'.arena.data D.arena.next).kind = .element "body".toList attrs
  node : ∀ n, n < D.arena.next → D'.arena.data n = D.arena.data n ∧
    D'.arena.parent n = D.arena.parent n ∧ (n ≠ D.root → D'.arena.children n = D.arena.children n)

theorem C06_any_patches_no_body (parse : Str → Document) {D : Document} (hw : D.arena.WF)
    (hr : D.root < D.arena.next) (hb : D.body = none) {ps : List Patch} (hne : ps ≠ [])
    (hps : ∀ P ∈ ps, P.SparesRoot) : GainsBody D (applyPatchesKeep parse D ps).1 := by
  have w1 := hw.addChild hr (Document.elem "body".toList)
  have n1 := Arena.addChild_next D.arena D.root (Document.elem "body".toList)
  have c1 := hw.addChild_children D.root (Document.elem "body".toList)
  have d1 := Arena.addChild_data D.arena D.root (Document.elem "body".toList)
  have p1 := hw.addChild_parent D.root (Document.elem "body".toList)
  have e : initSlots D = ({ D with arena := (D.arena.addChild D.root (Document.elem "body".toList)).1 },
      Arena.upd (fun _ => none) 0 (some D.arena.next)) := by
    simp only [initSlots, Document.ensureBody, hb, Arena.addChild_snd]
  generalize (D.arena.addChild D.root (Document.elem "body".toList)).1 = A0 at *
  have hs : Sealed A0 D.arena.next (fun m => m < D.arena.next) A0 := by
    refine ⟨Nat.le_refl _, fun m hm => by omega, by omega, by omega, fun _ _ => rfl, fun _ _ => rfl, fun _ _ => rfl,
      rfl, rfl, ?_, ?_⟩
    · intro m p hm hne hp
      rw [p1, if_neg hne] at hp
      have := (hw.lt_of_parent _ _ hp).1; omega
    · intro m c hm hc
      rw [c1, if_neg (by omega), hw.children_ge (by omega)] at hc
      cases hc
  unfold applyPatchesKeep
  rw [if_neg (by simpa using hne), e]
  have hk := hs.applyKeep parse (slots := Arena.upd (fun _ => none) 0 (some D.arena.next)) ⟨Arena.upd_same .., by
    intro k n hk hn
    rw [Arena.upd_ne _ _ hk] at hn; cases hn⟩ hps
  refine ⟨rfl, rfl, ?_, ?_, fun n hn => ⟨?_, ?_, fun hnr => ?_⟩⟩
  · exact (hk.children _ hr).trans (by rw [c1, if_pos rfl])
  · have h1 := hk.btag
    rw [d1, if_pos rfl] at h1
    simp only
    cases hkd : ((applyKeep parse A0 (Arena.upd (fun _ => none) 0 (some D.arena.next)) ps).1.data
        D.arena.next).kind with
    | element tag at_ =>
      rw [hkd] at h1
      simp only [NodeKind.tag?, Document.elem, Option.some.injEq] at h1
      exact ⟨at_, by rw [h1]⟩
    | _ => rw [hkd] at h1; cases h1
  · exact (hk.data _ hn).trans (by rw [d1, if_neg (by omega)])
  · exact (hk.parent _ hn).trans (by rw [p1, if_neg (by omega)])
  · exact (hk.children _ hn).trans (by rw [c1, if_neg hnr])

/-- **C06**, old document without body: if there is anything to insert the root gets a body as last
child, and nothing else changes outside that body. -/
theorem C06_no_body (parse : Str → Document) (hold : old.Sound) (hnew : new.Sound) (hb : old.body = none) :
    ∃ ps, diff hashNode old new = .ok ps ∧
      (ps ≠ [] → GainsBody old (applyPatchesKeep parse old ps).1) ∧
      (ps = [] → (applyPatchesKeep parse old ps).1 = old) := by
  obtain ⟨ps, e, hq⟩ := diff_ok (hashNode := hashNode) hold hnew
  refine ⟨ps, e, fun hne => ?_, ?_⟩
  · exact C06_any_patches_no_body parse hold.arena.wf hold.root_lt hb hne
      (hq fun ob nb h _ => by rw [hb] at h; cases h)
  · rintro rfl; rfl

/-! ### Concrete cases -/

theorem ofForest_sound (cs : List Html) (h : Html.validL cs = true) : (Document.ofForest cs).Sound :=
  ⟨ofForest_valid cs h, Nat.lt_of_lt_of_le (by decide : (0 : Nat) < 3)
    (addTrees_extends cs Document.new.arena 2 h Document.new_sound.arena (by decide)
      (by right; exact ⟨_, _, rfl⟩)).le⟩

/-- The pair for which the round trip fails (`C01_violated`) meets the hypotheses: the patches are
produced, applying them fails, and head and root are as before. -/
example : (∃ ps, diff Shape.node (.ofForest bad1) (.ofForest bad2) = .ok ps ∧
      KeepsOutside (.ofForest bad1) 2 (applyPatchesKeep (fun _ => Document.new) (.ofForest bad1) ps).1) ∧
    (match diff Shape.node (.ofForest bad1) (.ofForest bad2) with
      | .error _ => false
      | .ok ps => (applyPatchesKeep (fun _ => Document.new) (.ofForest bad1) ps).2.isSome) = true := by
  refine ⟨C06_outside_untouched _ (ofForest_sound _ (by decide +kernel)) (ofForest_sound _ (by decide +kernel))
    (by decide +kernel) ?_, by decide +kernel⟩
  intro ob nb h1 h2
  rw [show (Document.ofForest bad1).body = some 2 by decide +kernel] at h1
  rw [show (Document.ofForest bad2).body = some 2 by decide +kernel] at h2
  cases h1; cases h2; decide +kernel

/-- A document without body, and patches that give it one. -/
example : noBodyDoc.body = none ∧ (match diff Shape.node noBodyDoc (.ofForest bad2) with
      | .error _ => false
      | .ok ps => ps.length = 1) = true := by decide +kernel

/-- The namespace hypothesis is needed: if the new body is an SVG element called `body`, the old body
is removed. Parsing never gives such a document. -/
def svgBody : Document := { Document.new with
  arena := { Document.new.arena with data := Arena.upd Document.new.arena.data 2 ⟨.element "body".toList [], .svg⟩ } }

theorem C06_foreign_body_removed : svgBody.body = some 2 ∧ ∃ ps,
    diff Shape.node (.ofForest bad1) svgBody = .ok ps ∧ (Document.ofForest bad1).arena.parent 2 = some 0 ∧
    (applyPatchesKeep (fun _ => Document.new) (.ofForest bad1) ps).1.arena.parent 2 = none := by
  refine ⟨by decide +kernel, ?_⟩
  have h : (match diff Shape.node (.ofForest bad1) svgBody with
    | .error _ => false
    | .ok ps => decide ((applyPatchesKeep (fun _ => Document.new) (.ofForest bad1) ps).1.arena.parent 2 = none)) =
      true := by decide +kernel
  cases e : diff Shape.node (.ofForest bad1) svgBody with
  | error x => rw [e] at h; cases h
  | ok ps =>
    rw [e] at h
    exact ⟨ps, rfl, by decide +kernel, of_decide_eq_true h⟩

end Hotmeal
