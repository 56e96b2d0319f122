import Verif.Lemmas.BlockRun
import Verif.Props.Unique
import Verif.Props.Traffic
import Verif.Props.Widgets

set_option autoImplicit false
set_option linter.unusedSectionVars false

/-!
# C58: an unchanged block is not touched
-/

namespace Hotmeal

/-- `x` is child number `k` of the old body and `y` is child number `k` of the new body. They are equal in every
respect, and no node inside the one has the content (names and texts, attributes aside) of a node outside of the
other. -/
structure SameBlock (old new : Document) (ob nb k x y : Nat) : Prop where
  kidOld : (old.arena.children ob)[k]? = some x
  kidNew : (new.arena.children nb)[k]? = some y
  same : Arena.Alike Eq old.arena new.arena x y
  apart : ∀ n m, old.arena.Anc ob n → new.arena.Anc nb m →
    Arena.Alike NodeData.SameContent old.arena new.arena n m → (old.arena.Anc x n ↔ new.arena.Anc y m)

/-- An opaque element inside `x` or `y` has not got the name of an element outside of the other. -/
def OwnWidgets (old new : Document) (ob nb x y : Nat) : Prop :=
  ∀ n m, old.arena.Anc ob n → new.arena.Anc nb m → (old.arena.data n).SameType (new.arena.data m) →
    (old.arena.data n).isOpaque = true → (old.arena.Anc x n ↔ new.arena.Anc y m)

variable {H : Type} [DecidableEq H] {hashNode : HKind → Option Str → List H → H}
  {old new : Document} {ob nb : Nat}

theorem Built.alike_eq {T : Arena TData} {g : Nat → Nat} (hb : Built old ob T g) :
    ∀ n m, n < T.next → n ≠ 0 → Arena.Alike Eq old.arena new.arena (g n) m →
      Arena.Alike Eq T (diffable new) n m := by
  intro n
  refine hb.wf.induct_down (P := fun n => ∀ m, n < T.next → n ≠ 0 →
      Arena.Alike Eq old.arena new.arena (g n) m → Arena.Alike Eq T (diffable new) n m) ?_ n
  intro n ih m hn h0 h
  cases h with
  | node data len kids =>
  refine .node ?_ ?_ ?_
  · rw [hb.data n hn h0, data]; rfl
  · rw [hb.kids n hn, List.length_map] at len
    exact len
  · intro i c d hc hd
    have hpar := (hb.wf.mem_iff _ _).1 (List.mem_of_getElem? hc)
    refine ih c (List.mem_of_getElem? hc) d (hb.wf.lt_of_parent _ _ hpar).1 ?_ (kids i _ d ?_ hd)
    · rintro rfl; rw [hb.root] at hpar; cases hpar
    · rw [hb.kids n hn, List.getElem?_map, hc]; rfl

theorem Built.anc_iff {T : Arena TData} {g : Nat → Nat} (hb : Built old ob T g) (hw : old.arena.WF)
    {a n : Nat} (ha : T.Anc 0 a) (hn : T.Anc 0 n) :
    old.arena.Anc (g a) (g n) ↔ T.Anc a n := by
  rw [← hw.mem_descendants, hb.descendants hw a (hb.lt_of_anc ha), List.mem_map, ← hb.wf.mem_descendants]
  constructor
  · rintro ⟨m, hm, e⟩
    rw [← hb.ginj hw (ha.trans ((hb.wf.mem_descendants _ _).1 hm)) n hn e]
    exact hm
  · intro h
    exact ⟨n, h, rfl⟩

theorem SameBlock.block_apart (h : Comparable old new ob nb)
    (hc : NoCollision hashNode (buildTree old ob) (diffable new) nb)
    (hob : old.ClearBody ob) (hnb : new.ClearBody nb) (hap : Apart old new ob nb)
    {g : Nat → Nat} (hb : Built old ob (buildTree old ob) g)
    {k x y : Nat} (hs : SameBlock old new ob nb k x y) (hw : OwnWidgets old new ob nb x y) :
    ∃ a, g a = x ∧ Block hashNode (buildTree old ob) (diffable new) 0 nb k a y := by
  have hwo := h.old.sound.arena.wf
  have hBw : (diffable new).WF := Built.diffable_wf h.new.sound.arena.wf
  have hk := hs.kidOld
  rw [← hb.g0, hb.kids 0 hb.pos, List.getElem?_map] at hk
  cases e : ((buildTree old ob).children 0)[k]? with
  | none => rw [e] at hk; cases hk
  | some a =>
    rw [e] at hk
    simp only [Option.map_some, Option.some.injEq] at hk
    have hpa := (hb.wf.mem_iff _ _).1 (List.mem_of_getElem? e)
    have hlt := (hb.wf.lt_of_parent _ _ hpa).1
    have ha : (buildTree old ob).Anc 0 a := .step hpa .refl
    subst hk
    refine ⟨a, rfl, ?_, hnb, fun n m => hap.tree h hob hb, ?_, hc, e, hs.kidNew,
      hb.alike_eq _ _ hlt ?_ hs.same, ?_⟩
    · rw [hb.rdata]; rfl
    · intro n m h1 h2 hk ho
      have hl := hb.lt_of_anc h1
      have hga := hb.ganc hwo h1
      rw [hb.isOpaque_at hob hl] at ho
      rw [← hb.anc_iff hwo ha h1, hw (g n) m hga (anc_of_diffable h2) (NodeData.sameType_of
        (TextEdit.no_document h.old _ hga) (TextEdit.no_document h.new _ (anc_of_diffable h2)) (by
          rw [← (hb.look h.old.body hl).1]; exact hk)) ho]
      exact ⟨diffable_anc, anc_of_diffable⟩
    · rintro rfl; rw [hb.root] at hpa; cases hpa
    · intro n m h1 h2 e
      rw [← hb.anc_iff hwo ha h1, hs.apart (g n) m (hb.ganc hwo h1) (anc_of_diffable h2)
        (hb.same_of_shape (new := new) (nb := nb) h.old.body hBw (TextEdit.no_document h.old)
          (TextEdit.no_document h.new) hwo n m h1 h2 e)]
      exact ⟨diffable_anc, anc_of_diffable⟩

theorem Document.Clear.isOpaque {D : Document} {b n : Nat} (hc : D.Clear b) (hn : D.arena.Anc b n) :
    (D.arena.data n).isOpaque = false := by
  rw [← NodeData.isOpaque_eq]; exact hc.tdata hn

theorem Document.Clear.body {D : Document} {b : Nat} (hc : D.Clear b) : D.ClearBody b := hc.tdata .refl

theorem Document.Clear.apart (ho : old.Clear ob) (hn : new.Clear nb) : Apart old new ob nb :=
  fun n m h1 h2 _ => by rw [ho.isOpaque h1, hn.isOpaque h2]

theorem Document.Clear.ownWidgets (ho : old.Clear ob) {x y : Nat} : OwnWidgets old new ob nb x y :=
  fun n m h1 _ _ e => by rw [ho.isOpaque h1] at e; cases e

theorem Document.Clear.not_inside {D : Document} {b n : Nat} (hc : D.Clear b) :
    ¬ InsideOpaque (diffable D) b n := by
  rintro ⟨o, h1, h2, _⟩
  rw [show ((diffable D).data o).props.isOpaque = false from hc.tdata (anc_of_diffable h1)] at h2
  cases h2

theorem Document.Clear.not_inside_built {n : Nat} (ho : old.Clear ob) {T : Arena TData} {g : Nat → Nat}
    (hb : Built old ob T g) (hw : old.arena.WF) (hn : T.Anc 0 n) : ¬ InsideOpaque T 0 n := by
  rw [hb.inside_iff hw ho.body hn]; exact ho.not_inside

theorem SameBlock.block (h : Comparable old new ob nb)
    (hc : NoCollision hashNode (buildTree old ob) (diffable new) nb) (ho : old.Clear ob) (hn : new.Clear nb)
    {g : Nat → Nat} (hb : Built old ob (buildTree old ob) g)
    {k x y : Nat} (hs : SameBlock old new ob nb k x y) :
    ∃ a, g a = x ∧ Block hashNode (buildTree old ob) (diffable new) 0 nb k a y :=
  hs.block_apart h hc ho.body hn.body (ho.apart hn) hb ho.ownWidgets

theorem TData.Like.of_eq {d e : TData} (h : d = e) : d.Like e := by subst h; exact ⟨rfl, rfl, rfl⟩

namespace Block

variable {A B : Arena TData} {M : Matching} {k x y : Nat}

theorem total (hA : A.WF) (h : Block hashNode A B 0 nb k x y) {a : Nat} (ha : A.Anc x a) (hx : A.Anc 0 x)
    (hi : ¬ InsideOpaque A 0 a) : ∃ b, Corr A B x y a b := by
  rcases corr_totalA hA (h.same.mono fun _ _ e => (TData.Like.of_eq e).looks) ha with h1 | ⟨o, h1, h2, h3⟩
  · exact h1
  · exact absurd ⟨o, hx.trans h1, h2, h3⟩ hi

theorem total' (hB : B.WF) (h : Block hashNode A B 0 nb k x y) {b : Nat} (hb : B.Anc y b) (hy : B.Anc nb y)
    (hi : ¬ InsideOpaque B nb b) : ∃ a, Corr A B x y a b := by
  rcases corr_totalB hB (h.same.mono fun _ _ e => (TData.Like.of_eq e).looks) hb with h1 | ⟨o, h1, h2, h3⟩
  · exact h1
  · exact absurd ⟨o, hy.trans h1, h2, h3⟩ hi

/-- The edit script is not about the block. -/
theorem avoids (hp : Plan A B nb (diffMatching (DiffTree.ofArena hashNode A 0) (DiffTree.ofArena hashNode B nb)))
    (h : Block hashNode A B 0 nb k x y) (op : EditOp)
    (hop : op ∈ scriptOf hashNode A B 0 nb
      (diffMatching (DiffTree.ofArena hashNode A 0) (DiffTree.ofArena hashNode B nb))) :
    op.Avoids (fun n => A.Anc 0 n → Plan.Old A n → A.Anc x n) (B.Anc y) nb k := by
  have hA := hp.aw
  have hB := hp.bw
  have hm : ∀ a b, Corr A B x y a b → _ := fun a b hc => h.matched hA hB hc
  have hx : A.Anc 0 x := .step (h.parA hA hB) .refl
  have hy : B.Anc nb y := .step (h.parB hA hB) .refl
  have hroot := hp.root
  generalize hM : diffMatching (DiffTree.ofArena hashNode A 0) (DiffTree.ofArena hashNode B nb) = M at *
  -- matched nodes of the block
  have hpair : ∀ a b, (a, b) ∈ M.pairs → A.Anc x a → Corr A B x y a b := by
    intro a b hab ha
    obtain ⟨b', hb'⟩ := h.total hA ha hx (hp.clear a b hab).1
    have := hp.fn1 hab (hm _ _ hb')
    subst this; exact hb'
  have hpair' : ∀ a b, (a, b) ∈ M.pairs → B.Anc y b → Corr A B x y a b := by
    intro a b hab hb
    obtain ⟨a', ha'⟩ := h.total' hB hb hy (hp.clear a b hab).2
    have := hp.fn2 hab (hm _ _ ha')
    subst this; exact ha'
  have hold : ∀ a b, (a, b) ∈ M.pairs → Plan.Old A a := fun a b hab => ⟨(hp.lt a b hab).1, (hp.clear a b hab).1⟩
  have hdata : ∀ a b, Corr A B x y a b → A.data a = B.data b := by
    intro a b hc
    cases hc.alike h.same with
    | node data _ _ => exact data
  have hkid : ∀ b pb pos, B.parent b = some pb → AtIndex B b pos → pb = nb ∧ pos = k → b = y := by
    rintro b pb pos hpb hat ⟨rfl, rfl⟩
    unfold AtIndex at hat
    rw [hpb] at hat
    have hat' : (B.children pb)[pos]? = some b := hat
    rw [h.kidB] at hat'
    exact (Option.some.inj hat').symm
  cases op with
  | updateProps a b ch =>
    intro ha
    obtain ⟨p, h1, h2, h3, h4⟩ := mem_updateOps.1 ((mem_script_phase hop).2.2.2 rfl)
    have hab : (a, b) ∈ M.pairs := by
      rcases h4 with h4 | h4
      · unfold textOps at h4
        split at h4
        · cases h4
        · split at h4
          · simp at h4
          · cases h4
      · rw [Plan.propOps_eq] at h4
        split at h4
        · rw [List.mem_singleton] at h4; cases h4; exact h1
        · cases h4
    have hc := hpair a b hab (ha (hp.areach a (hp.lt a b hab).1) (hold a b hab))
    have hd := hdata a b hc
    have hu : ∀ d : TData, IsT d ∧ (kindOf d).Clean → d.props.Unique := by
      rintro d ⟨⟨nd, hnd, rfl⟩, hcl⟩
      rw [kindOf_tdataOf hnd] at hcl
      obtain ⟨kd, ns⟩ := nd
      cases kd with
      | element tag attrs => exact hcl
      | _ => exact List.nodup_nil
    have h5 := (C13_prop_updates_exactly_when_needed hA hB M a b (hu _ (hp.at_ a (hp.lt a b hab).1))
      (hu _ (hp.bt b (hp.lt a b hab).2)) ch).1 hop
    exact h5.2.2.2.1 (by rw [hd])
  | setText a b t =>
    intro ha
    rw [C13_text_updates_exactly_when_needed hA hB] at hop
    obtain ⟨h1, _, _, h4, h5⟩ := hop
    apply h5
    rw [hdata a b (hpair a b h1 (ha (hp.areach a (hp.lt a b h1).1) (hold a b h1))), h4]
  | delete a =>
    intro ha
    rw [C11_deletes_are_the_unmatched hA hp.apos] at hop
    have hlt : a < A.next := by
      rcases hop.1.cases' with rfl | ⟨p, hp', _⟩
      · exact hp.apos
      · exact (hA.lt_of_parent _ _ hp').1
    obtain ⟨b, hb⟩ := h.total hA (ha hop.1 ⟨hlt, hop.2.2⟩) hx hop.2.2
    rw [(hp.getB _ _).2 (hm _ _ hb)] at hop
    exact absurd hop.2.1 (by simp)
  | insert b pb pos kind =>
    rw [C10_inserts_are_the_unmatched hB] at hop
    obtain ⟨_, h2, h3, h4, h5, _⟩ := hop
    have hin : ¬ B.Anc y b := by
      intro e
      obtain ⟨a, ha⟩ := h.total' hB e hy h3
      rw [(hp.getA _ _).2 (hm _ _ ha)] at h2
      cases h2
    exact ⟨fun e => hin (.step h4 e), fun e => hin (hkid b pb pos h4 h5 e ▸ .refl)⟩
  | move a b pb pos =>
    rw [C12_moves_exactly_when_needed hA hB] at hop
    obtain ⟨h1, _, _, h4, h5, pa, h6, h7⟩ := hop
    have hno : ¬ Corr A B x y a b := by
      intro hc
      have hi : ∀ i : Nat, (B.children pb)[i]? = some b → i = pos := by
        intro i hi
        unfold AtIndex at h5
        rw [h4] at h5
        exact List.nodup_getElem?_inj (hB.nodup _) hi h5
      rcases hc.inv hA hB with ⟨rfl, rfl⟩ | ⟨p, q, i, hpq, h8, h9, h10, h11⟩
      · have e1 := h.parA hA hB
        have e2 := h.parB hA hB
        rw [e1] at h6; cases h6
        rw [e2] at h4; cases h4
        rcases h7 with h7 | h7
        · exact h7 ((hp.getB _ _).2 hroot)
        · apply h7
          unfold AtIndex
          rw [e1, ← hi k h.kidB]
          exact h.kidA
      · rw [h8] at h6; cases h6
        rw [h9] at h4; cases h4
        rcases h7 with h7 | h7
        · exact h7 ((hp.getB _ _).2 (hm _ _ hpq))
        · apply h7
          unfold AtIndex
          rw [h8, ← hi i h11]
          exact h10
    have hb : ¬ B.Anc y b := fun e => hno (hpair' a b h1 e)
    exact ⟨fun e => hno (hpair a b h1 (e (hp.areach a (hp.lt a b h1).1) (hold a b h1))), fun e => hb (.step h4 e), fun e => hb (hkid b pb pos h4 h5 e ▸ .refl)⟩

end Block

/-- A run of the patches of `diff` on a page that shows the old tree leaves unchanged blocks alone. -/
theorem Comparable.block_run_at {step : StepFn} {D0 : Arena NodeData} {db : Nat} (hL : Lawful db step)
    (h : Comparable old new ob nb)
    (hc : NoCollision hashNode (buildTree old ob) (diffable new) nb)
    (hob : old.ClearBody ob) (hnb : new.ClearBody nb) (hap : Apart old new ob nb)
    (hf : NoMoveBelowSelf hashNode old new ob nb ∨ NoInversion hashNode old new ob nb)
    {f : Nat → Nat} (hd : DocRel (buildTree old ob) D0 db f)
    {g : Nat → Nat} (hbt : Built old ob (buildTree old ob) g) :
    ∃ S0 ps, diff hashNode old new = .ok (ps ++ reports hashNode old new ob nb S0) ∧
      ∀ k x y, SameBlock old new ob nb k x y → OwnWidgets old new ob nb x y →
      ∃ a, g a = x ∧ (buildTree old ob).parent a = some 0 ∧ (∀ P ∈ ps, ∀ q ∈ P.paths, ¬ [0, k] <+: q) ∧
      ∀ qs, qs <+: ps → ∃ ops w, (∀ op ∈ ops, op ∈ script hashNode old new ob nb) ∧
        Trace (diffable new) (insertedNodes (script hashNode old new ob nb)) step f
        (Surplus (Plan.ctx (buildTree old ob) (diffable new)
          (diffMatching (oldTree hashNode old ob) (newTree hashNode new nb)) D0 f) D0 f)
        ⟨⟨S0, initBToShadow (diffMatching (oldTree hashNode old ob) (newTree hashNode new nb))⟩, D0,
          Arena.upd (fun _ => none) 0 (some db), fun b =>
            ((diffMatching (oldTree hashNode old ob) (newTree hashNode new nb)).getA b).map f⟩
        ops qs w ∧ Spared D0 db k (f a) w.D w.slots := by
  have hoa := hap.agree h hob hc
  have hBw : (diffable new).WF := Built.diffable_wf h.new.sound.arena.wf
  obtain ⟨S0, ps, w, _, hS0, e, ht, hg, hm, hfr⟩ := h.run hc hoa hf hL hd
    (slots := Arena.upd (fun _ => none) 0 (some db)) (by simp)
  refine ⟨S0, ps, e, fun k x y hs hown => ?_⟩
  have hp := h.plan hashNode hc hoa hbt
  obtain ⟨a, rfl, hbl⟩ := hs.block_apart h hc hob hnb hap hbt hown
  have hpa := hbl.parA hbt.wf hBw
  have ha : (buildTree old ob).Anc 0 a := .step hpa .refl
  have h0o : Plan.Old (buildTree old ob) 0 := ⟨hbt.pos, InsideOpaque.not_root hbt.wf⟩
  have hao : Plan.Old (buildTree old ob) a := by
    refine ⟨hbt.lt_of_anc ha, fun hi => h0o.2 ?_⟩
    rw [InsideOpaque.parent_iff hbt.wf hpa .refl] at hi
    rcases hi with hi | hi
    · exact hi
    · rw [hbt.rdata] at hi; cases hi
  have hxp : D0.parent (f a) = some db := by
    rw [hd.parent hbt.wf hao hpa .refl, hd.root]
  have hlt := hd.wf.lt_of_parent _ _ hxp
  have hold : ∀ a' b, (a', b) ∈ (diffMatching (oldTree hashNode old ob) (newTree hashNode new nb)).pairs →
      Plan.Old (buildTree old ob) a' := fun a' b hab => ⟨(hp.lt a' b hab).1, (hp.clear a' b hab).1⟩
  refine ⟨a, rfl, hpa, ht.spared
    (S := fun n => (buildTree old ob).Anc 0 n → Plan.Old (buildTree old ob) n → (buildTree old ob).Anc a n)
    (Sb := (diffable new).Anc y) (nb := nb) hd.wf hlt.1 hlt.2 (not_anc_parent hd.wf hxp) hL
    ?_ ?_ ?_ ?_ ?_⟩
  · rintro ⟨_, _, _, hj⟩
    exact hj a hao rfl
  · intro n hn' h0 hno
    exact hd.anc_of hbt.wf ha h0 hao hno hn'
  · exact fun op hop => hbl.avoids hp op hop
  · refine ⟨hd.wf, Nat.le_refl _, by simp, ?_, fun _ _ => rfl, fun _ _ => rfl⟩
    obtain ⟨junk, hj, _⟩ := hd.kids 0 h0o (by rw [hbt.rdata]; rfl)
    have hka := hbl.kidA
    rw [← hd.root, hj, List.getElem?_append_left
      (by rw [List.length_map]; exact (List.getElem?_eq_some_iff.1 hka).1), List.getElem?_map, hka]
    rfl
  · intro b n hb
    simp only [Option.map_eq_some_iff] at hb
    obtain ⟨a', ha', rfl⟩ := hb
    have hab := (hp.getA _ _).1 ha'
    have h0 := hp.areach a' (hp.lt a' b hab).1
    constructor
    · intro e
      obtain ⟨b', hb'⟩ := hbl.total hbt.wf (hd.anc_of hbt.wf ha h0 hao (hold a' b hab) e) ha (hp.clear a' b hab).1
      have := hp.fn1 hab (hbl.matched hbt.wf hBw hb')
      subst this
      exact hb'.ancB hBw
    · intro e
      have : a' = 0 := hd.inj hbt.wf h0 .refl (hold a' b hab) h0o (e.trans hd.root.symm)
      subst this
      exact hp.fn1 hab hp.root

/-- The case of documents without opaque elements. -/
theorem Comparable.block_run {step : StepFn} (hL : Lawful ob step) (h : Comparable old new ob nb)
    (hc : NoCollision hashNode (buildTree old ob) (diffable new) nb) (ho : old.Clear ob) (hn : new.Clear nb)
    (hf : NoMoveBelowSelf hashNode old new ob nb ∨ NoInversion hashNode old new ob nb)
    {f : Nat → Nat} (hd : DocRel (buildTree old ob) old.arena ob f)
    (hbt : Built old ob (buildTree old ob) f) :
    ∃ S0 ps, diff hashNode old new = .ok ps ∧ ∀ k x y, SameBlock old new ob nb k x y →
      (∀ P ∈ ps, ∀ q ∈ P.paths, ¬ [0, k] <+: q) ∧
      ∀ qs, qs <+: ps → ∃ ops w, (∀ op ∈ ops, op ∈ script hashNode old new ob nb) ∧
        Trace (diffable new) (insertedNodes (script hashNode old new ob nb)) step f
        (Surplus (Plan.ctx (buildTree old ob) (diffable new)
          (diffMatching (oldTree hashNode old ob) (newTree hashNode new nb)) old.arena f) old.arena f)
        ⟨⟨S0, initBToShadow (diffMatching (oldTree hashNode old ob) (newTree hashNode new nb))⟩, old.arena,
          Arena.upd (fun _ => none) 0 (some ob), fun b =>
            ((diffMatching (oldTree hashNode old ob) (newTree hashNode new nb)).getA b).map f⟩
        ops qs w ∧ Spared old.arena ob k x w.D w.slots := by
  have hof := opaqueFixed_of_clear (hashNode := hashNode) h ho hn
  obtain ⟨S0, ps, e, hall⟩ := h.block_run_at hL hc ho.body hn.body (ho.apart hn) hf hd hbt
  rw [h.reports_nil hc hof.agree hof.same, List.append_nil] at e
  refine ⟨S0, ps, e, fun k x y hs => ?_⟩
  obtain ⟨a, rfl, _, h1, h2⟩ := hall k x y hs ho.ownWidgets
  exact ⟨h1, h2⟩

/-- **C58**, partial: a block of the page that is the same and at the same place before and after is not
touched. When child number `k` of the new body equals child number `k` of the old body and none of its parts
also occurs elsewhere, no patch of `diff` has a path that leads to it or into it. While the patches are
applied, after each of them, the block is at its place and its nodes have their children and their data.

Missing from the full statement: blocks with a part that also occurs elsewhere, for which it is false
(`C58_violated`), pages with opaque elements, and edit scripts with a Move of a node below itself. -/
theorem C58_unchanged_block_is_not_touched_partial (parse : Str → Document) (h : Comparable old new ob nb)
    (hc : NoCollision hashNode (buildTree old ob) (diffable new) nb) (ho : old.Clear ob) (hn : new.Clear nb)
    (hf : NoMoveBelowSelf hashNode old new ob nb ∨ NoInversion hashNode old new ob nb) :
    ∃ ps, diff hashNode old new = .ok ps ∧ ∀ k x y, SameBlock old new ob nb k x y →
      (∀ P ∈ ps, ∀ q ∈ P.paths, ¬ [0, k] <+: q) ∧
      ∀ qs, qs <+: ps → ∃ D, applyPatches parse old qs = .ok D ∧ (D.arena.children ob)[k]? = some x ∧
        ∀ n, old.arena.Anc x n → D.arena.children n = old.arena.children n ∧
          D.arena.data n = old.arena.data n := by
  obtain ⟨f, hd, hbt⟩ := h.docRel_old
  obtain ⟨S0, ps, e, hall⟩ := h.block_run (lawful_native parse _) hc ho hn hf hd hbt
  refine ⟨ps, e, fun k x y hs => ?_⟩
  obtain ⟨h1, h2⟩ := hall k x y hs
  refine ⟨h1, fun qs hqs => ?_⟩
  obtain ⟨ops, w, _, ht, hsp⟩ := h2 qs hqs
  exact ⟨_, h.applyPatches_eq parse qs ht.apply, hsp.kid, fun n hn => ⟨hsp.children n hn, hsp.data n hn⟩⟩

/-- **C58**, partial, in the browser: when the page shows the body of the old document and the patches of
`diff` are applied to it, the DOM nodes that show an unchanged block stay where they are: after each patch the
same nodes are at the same places, with the same children and the same content. Missing: as above and as for
`C31_browser_agrees_partial`. -/
theorem C58_browser_leaves_unchanged_block_partial {N : QualName → Prop} (dom : WebDom)
    (h : Comparable old new ob nb)
    (hc : NoCollision hashNode (buildTree old ob) (diffable new) nb) (ho : old.Clear ob) (hn : new.Clear nb)
    (hf : NoMoveBelowSelf hashNode old new ob nb ∨ NoInversion hashNode old new ob nb)
    (hN : PlainNames N) (hno : old.NamesIn N ob) (hnn : new.NamesIn N nb)
    {E : Arena NodeData} {eb : Nat} (hE : E.WF) (heb : eb < E.next) (hEe : E.ElemBelow eb)
    (hEl : E.Lower) (hk : new.AllIn dom.KeepsTag dom.KeepsName nb)
    (hsame : (E.tree eb).unq = (old.arena.tree ob).unq) :
    ∃ ps, diff hashNode old new = .ok ps ∧ ∀ k x y, SameBlock old new ob nb k x y →
      ∀ qs, qs <+: ps → ∃ E', dom.applyPatches eb E qs = .ok E' ∧
        ∀ n m, old.arena.Anc x n → Place old.arena E ob eb n m →
          Place old.arena E' ob eb n m ∧ E'.children m = E.children m ∧ (E'.tree m).unq = (E.tree m).unq := by
  obtain ⟨f, hd, hbt⟩ := h.docRel_old
  have hso := h.old.sound.arena
  have hof := opaqueFixed_of_clear (hashNode := hashNode) h ho hn
  have hbm := (Document.body_spec h.old.body).1
  have hbp := (hso.wf.mem_iff _ _).1 hbm
  obtain ⟨φ, hA⟩ := agree_of_tree (N := N) hso.wf hE (hso.wf.lt_of_parent _ _ hbp).1 heb ⟨_, hbp⟩
    h.old.elemBelow hEe (fun n tag attrs ha ek => ⟨hno n tag attrs ha ek, hso.uniq n tag attrs ek⟩) hsame
  obtain ⟨S0, ps, e, hall⟩ := h.block_run (lawful_forget (fun _ => .ofForest []) _) hc ho hn hf hd hbt
  refine ⟨ps, e, fun k x y hs qs hqs => ?_⟩
  obtain ⟨ops, w, hsub, ht, hsp⟩ := (hall k x y hs).2 qs hqs
  obtain ⟨φ1, L1, E1, t1, e4, hA1, hx⟩ := ht.browser (Built.diffable_wf h.new.sound.arena.wf) hN
    (hbt.not_surplus _) (fun op hop => h.script_names hc hof.agree hnn op (hsub op hop)) hA
  have hxo : old.arena.Anc ob x :=
    .step ((hso.wf.mem_iff _ _).1 (List.mem_of_getElem? hs.kidOld)) .refl
  -- the nodes of the page are the images of the old nodes
  have himg : ∀ n m, Place old.arena E ob eb n m → old.arena.Anc ob n ∧ m = φ n := by
    intro n m hp
    induction hp with
    | root => exact ⟨.refl, hA.rootE.symm⟩
    | @child p q i a b _ ha hb ih =>
      obtain ⟨i1, rfl⟩ := ih
      rw [hA.kids p i1, List.getElem?_map, ha] at hb
      exact ⟨.step ((hso.wf.mem_iff _ _).1 (List.mem_of_getElem? ha)) i1, (Option.some.inj hb).symm⟩
  have hkids : ∀ n, old.arena.Anc x n → E1.children (φ n) = E.children (φ n) := by
    intro n hn
    have hL := hx n (hxo.trans hn)
    rw [← hL.2, hA1.kids n hL.1, hL.2, hA.kids n (hxo.trans hn), hsp.children n hn]
    apply List.map_congr_left
    intro c hc'
    exact (hx c (.step ((hso.wf.mem_iff _ _).1 hc') (hxo.trans hn))).2
  have hplace : ∀ n, old.arena.Anc x n → Place old.arena E1 ob eb n (φ n) := by
    intro n hn
    induction hn with
    | refl =>
      refine .child .root hs.kidOld ?_
      rw [← hA1.rootE, hA1.kids ob hA1.rootL, List.getElem?_map, hsp.kid, Option.map_some, (hx x hxo).2]
    | @step n p hp hxp ih =>
      obtain ⟨i, hi⟩ := List.mem_iff_getElem?.1 ((hso.wf.mem_iff _ _).2 hp)
      refine .child ih hi ?_
      rw [hkids p hxp, hA.kids p (hxo.trans hxp), List.getElem?_map, hi]; rfl
  have htree : ∀ n, old.arena.Anc x n → w.D.tree n = old.arena.tree n := by
    intro n
    refine hso.wf.induct_down (P := fun n => old.arena.Anc x n → w.D.tree n = old.arena.tree n) ?_ n
    intro n ih hn
    rw [hsp.wf.tree_eq, hso.wf.tree_eq, Arena.forest, Arena.forest, hsp.children n hn, hsp.data n hn]
    congr 1
    exact List.map_congr_left fun c hc' => ih c hc' (.step ((hso.wf.mem_iff _ _).1 hc') hn)
  refine ⟨E1, ?_, fun n m hxn hp => ?_⟩
  · rw [WebDom.applyPatches_eq hEl fun P hP => C31_names_from_new dom h hc hof.agree hk e P (hqs.subset hP)]
    simp only [Wasm.applyPatches, e4, bind, Except.bind]
  · obtain ⟨ha, rfl⟩ := himg n m hp
    refine ⟨hplace n hxn, hkids n hxn, ?_⟩
    have hL := hx n ha
    have h1 := hA1.tree n hL.1
    rw [hL.2] at h1
    rw [h1, hA.tree n ha, htree n hxn]

/-! ### Concrete cases -/

/-- Checker for `SameBlock`. -/
def sameBlockB (D E : Document) (ob nb k x y : Nat) : Bool :=
  decide ((D.arena.children ob)[k]? = some x) && decide ((E.arena.children nb)[k]? = some y) &&
  alikeB (fun d e => decide (d = e)) D.arena E.arena 9 x y &&
  (D.arena.descendants ob).all fun n => (E.arena.descendants nb).all fun m =>
    !decide ((diffable D).shape n = (diffable E).shape m) ||
    (decide (n ∈ D.arena.descendants x) == decide (m ∈ E.arena.descendants y))

theorem sameBlockB_spec {D E : Document} {ob nb k x y : Nat} (hD : D.arena.WF) (hE : E.arena.WF)
    (h : sameBlockB D E ob nb k x y = true) : SameBlock D E ob nb k x y := by
  simp only [sameBlockB, Bool.and_eq_true, List.all_eq_true, Bool.or_eq_true, decide_eq_true_eq,
    Bool.not_eq_true', decide_eq_false_iff_not, beq_iff_eq] at h
  obtain ⟨⟨⟨h1, h2⟩, h3⟩, h4⟩ := h
  refine ⟨h1, h2, alike_of_alikeB (fun d e h => of_decide_eq_true h) h3, fun n m hn hm hs => ?_⟩
  rcases h4 n ((hD.mem_descendants _ _).2 hn) m ((hE.mem_descendants _ _).2 hm) with h | h
  · exact absurd (sameContent_shape (Built.diffable_wf hD) (Built.diffable_wf hE) hs) h
  · rw [← hD.mem_descendants, ← hE.mem_descendants]
    exact decide_eq_decide.1 h

/-- A page of a heading, a list and a paragraph. -/
def news1 : List Html :=
  [ex "h1" [] [.text "News".toList],
    ex "ul" [("class", "a")] [ex "li" [] [.text "one".toList], ex "li" [] [.text "one".toList]],
    ex "p" [] [.text "old".toList]]
/-- Another heading, the same list, and a new list at the end. -/
def news2 : List Html :=
  [ex "h1" [("id", "x")] [.text "Today".toList],
    ex "ul" [("class", "a")] [ex "li" [] [.text "one".toList], ex "li" [] [.text "one".toList]],
    ex "ul" [] [ex "li" [] [.text "two".toList]], ex "p" [] [.text "old".toList]]

/-- The hypotheses of C58 hold for these pages and the list, and there are patches. -/
example : Comparable (.ofForest news1) (.ofForest news2) 2 2 ∧
    NoCollision Shape.node (buildTree (.ofForest news1) 2) (diffable (.ofForest news2)) 2 ∧
    (Document.ofForest news1).Clear 2 ∧ (Document.ofForest news2).Clear 2 ∧
    NoMoveBelowSelf Shape.node (.ofForest news1) (.ofForest news2) 2 2 ∧
    SameBlock (.ofForest news1) (.ofForest news2) 2 2 1 5 5 ∧
    (match diff Shape.node (.ofForest news1) (.ofForest news2) with
      | .ok ps => decide (3 ≤ ps.length) | .error _ => false) = true := by
  have h1 := ofForest_valid news1 (by decide +kernel)
  have h2 := ofForest_valid news2 (by decide +kernel)
  exact ⟨comparable_ofForest (by decide +kernel) (by decide +kernel), noCollision_shape _ _ _,
    clear_of h1.wf (by decide +kernel), clear_of h2.wf (by decide +kernel),
    noMoveBelowSelf_of_movesSafe (by decide +kernel), sameBlockB_spec h1.wf h2.wf (by decide +kernel),
    by decide +kernel⟩

/-- Two lists. -/
def lists1 : List Html :=
  [ex "ul" [] [ex "li" [] [.text "a".toList], ex "li" [] [.text "b".toList]],
    ex "ul" [] [ex "li" [] [.text "c".toList]]]
/-- The second list has got another item, which the first list has too. -/
def lists2 : List Html :=
  [ex "ul" [] [ex "li" [] [.text "a".toList], ex "li" [] [.text "b".toList]],
    ex "ul" [] [ex "li" [] [.text "c".toList], ex "li" [] [.text "a".toList]]]

/-- **C58** is violated when a part of the block also occurs elsewhere: the first list is the same in both pages,
but the patches take its first item out, put it into the second list, and insert a copy into the first. -/
theorem C58_violated :
    ((Document.ofForest lists1).arena.children 2)[0]? = some 3 ∧
    ((Document.ofForest lists2).arena.children 2)[0]? = some 3 ∧
    Arena.Alike Eq (Document.ofForest lists1).arena (Document.ofForest lists2).arena 3 3 ∧
    Comparable (.ofForest lists1) (.ofForest lists2) 2 2 ∧
    NoCollision Shape.node (buildTree (.ofForest lists1) 2) (diffable (.ofForest lists2)) 2 ∧
    (Document.ofForest lists1).Clear 2 ∧ (Document.ofForest lists2).Clear 2 ∧
    NoMoveBelowSelf Shape.node (.ofForest lists1) (.ofForest lists2) 2 2 ∧
    (match diff Shape.node (.ofForest lists1) (.ofForest lists2) with
      | .ok ps => ps.any fun P => P.paths.any fun q => [0, 0].isPrefixOf q
      | .error _ => false) = true ∧
    (match diff Shape.node (.ofForest lists1) (.ofForest lists2) with
      | .ok ps => match applyPatches (fun _ => .ofForest []) (.ofForest lists1) ps with
        | .ok D => decide (D.arena.children 3 ≠ (Document.ofForest lists1).arena.children 3)
        | .error _ => false
      | .error _ => false) = true := by
  have h1 := ofForest_valid lists1 (by decide +kernel)
  have h2 := ofForest_valid lists2 (by decide +kernel)
  exact ⟨by decide +kernel, by decide +kernel,
    alike_of_alikeB (k := 9) (R := fun d e => decide (d = e)) (R' := Eq) (fun d e h => of_decide_eq_true h)
      (by decide +kernel),
    comparable_ofForest (by decide +kernel) (by decide +kernel), noCollision_shape _ _ _,
    clear_of h1.wf (by decide +kernel), clear_of h2.wf (by decide +kernel),
    noMoveBelowSelf_of_movesSafe (by decide +kernel), by decide +kernel, by decide +kernel⟩

end Hotmeal
