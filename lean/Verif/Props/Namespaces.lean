import Verif.Props.Address
import Verif.Props.Slots
import Verif.Spec.OfForest

set_option autoImplicit false
set_option linter.unusedSectionVars false

/-!
# C41: namespaces

A node that survives the patches keeps its namespace, and every node created by a patch other than an
opaque report is in the HTML namespace. So kept elements have the right namespace, inserted elements
have it exactly when the new document has an HTML element there.
-/

namespace Hotmeal

/-- Namespaces across a change of the arena: old nodes keep theirs, new nodes are HTML. -/
structure NsStep (A A' : Arena NodeData) : Prop where
  le : A.next ≤ A'.next
  old : ∀ i, i < A.next → (A'.data i).ns = (A.data i).ns
  new : ∀ i, A.next ≤ i → i < A'.next → (A'.data i).ns = .html

namespace NsStep

variable {A A1 A2 : Arena NodeData}

theorem refl : NsStep A A := ⟨Nat.le_refl _, fun _ _ => rfl, fun _ h1 h2 => absurd h1 (by omega)⟩

theorem trans (h1 : NsStep A A1) (h2 : NsStep A1 A2) : NsStep A A2 := by
  refine ⟨Nat.le_trans h1.le h2.le, fun i hi => ?_, fun i hi hi' => ?_⟩
  · have := h1.le
    rw [h2.old i (by omega), h1.old i hi]
  · rcases Nat.lt_or_ge i A1.next with h | h
    · rw [h2.old i h, h1.new i hi h]
    · exact h2.new i h hi'

theorem of_eq (h1 : A1.next = A.next) (h2 : A1.data = A.data) : NsStep A A1 :=
  ⟨by omega, fun _ _ => by rw [h2], fun _ h h' => absurd h (by omega)⟩

theorem newNode (A : Arena NodeData) (k : NodeKind) : NsStep A (A.newNode ⟨k, .html⟩).1 := by
  refine ⟨by simp [Arena.newNode], fun i hi => ?_, fun i hi hi' => ?_⟩
  · simp [Arena.newNode, Arena.upd, Nat.ne_of_lt hi]
  · have : i = A.next := by simp [Arena.newNode] at hi'; omega
    simp [Arena.newNode, Arena.upd, this]

theorem detach (A : Arena NodeData) (n : Nat) : NsStep A (A.detach n) := by
  unfold Arena.detach
  split <;> exact of_eq rfl rfl

theorem appendRaw (A : Arena NodeData) (p c : Nat) : NsStep A (A.appendRaw p c) :=
  (detach A c).trans (of_eq rfl rfl)

theorem append {p c : Nat} (h : A.append p c = .ok A1) : NsStep A A1 := by
  unfold Arena.append at h
  split at h
  · cases h
  · injection h with h; subst h; exact appendRaw A p c

theorem insertBefore {s n : Nat} (h : A.insertBefore s n = .ok A1) : NsStep A A1 := by
  unfold Arena.insertBefore at h
  split at h
  · cases h
  · simp only at h
    split at h
    · injection h with h; subst h; exact detach A n
    · split at h
      · cases h
      · injection h with h; subst h; exact (detach A n).trans (of_eq rfl rfl)

theorem fillGaps (A : Arena NodeData) (p k : Nat) : NsStep A (fillGaps A p k) := by
  induction k generalizing A with
  | zero => exact refl
  | succ k ih =>
    refine NsStep.trans ?_ (ih _)
    exact (newNode A (.text [])).trans (appendRaw _ _ _)

theorem insertAt {slots slots' : Slots} {p : Path} {n : Nat} {s : Option Nat}
    (h : insertAt A slots p n s = .ok (A1, slots')) : NsStep A A1 := by
  unfold Hotmeal.insertAt at h
  obtain ⟨⟨q, pos⟩, _, h⟩ := res_bind h
  simp only at h
  obtain ⟨A', h1, h⟩ := res_bind h
  simp only [Except.ok.injEq, Prod.mk.injEq] at h
  rw [← h.1]
  have hd : NsStep A (displace A slots q pos s).1 := by
    unfold displace
    split
    · exact refl
    · split
      · exact refl
      · exact detach _ _
  refine hd.trans ?_
  unfold insertAtPosition at h1
  simp only at h1
  split at h1
  · exact (fillGaps _ q _).trans (append h1)
  · exact (fillGaps _ q _).trans (insertBefore h1)

mutual
theorem create : ∀ (c : InsertContent) (A A1 : Arena NodeData) (n : Nat),
    createInsertContent A c = .ok (A1, n) → NsStep A A1
  | .element tag attrs children, A, A1, n, h => by
    simp only [createInsertContent] at h
    obtain ⟨A', h1, h⟩ := res_bind h
    simp only [Except.ok.injEq, Prod.mk.injEq] at h
    rw [← h.1]
    exact (newNode A _).trans (appendAll children _ _ _ h1)
  | .text s, A, A1, n, h => by
    simp only [createInsertContent, Except.ok.injEq] at h
    have : A1 = (A.newNode ⟨.text s, .html⟩).1 := by rw [h]
    rw [this]; exact newNode A _
  | .comment s, A, A1, n, h => by
    simp only [createInsertContent, Except.ok.injEq] at h
    have : A1 = (A.newNode ⟨.comment s, .html⟩).1 := by rw [h]
    rw [this]; exact newNode A _
theorem appendAll : ∀ (cs : List InsertContent) (A A1 : Arena NodeData) (n : Nat),
    appendInsertContents A n cs = .ok A1 → NsStep A A1
  | [], A, A1, n, h => by
    simp only [appendInsertContents, Except.ok.injEq] at h
    rw [← h]; exact refl
  | c :: cs, A, A1, n, h => by
    simp only [appendInsertContents] at h
    obtain ⟨⟨A', m⟩, h1, h⟩ := res_bind h
    simp only at h
    obtain ⟨A'', h2, h⟩ := res_bind h
    exact (create c A A' m h1).trans ((append h2).trans (appendAll cs A'' A1 n h))
end

theorem replaceByEmpty {n : Nat} (h : replaceByEmpty A n = .ok A1) : NsStep A A1 := by
  unfold Hotmeal.replaceByEmpty at h
  simp only at h
  obtain ⟨A', h1, h⟩ := res_bind h
  simp only [Except.ok.injEq] at h
  rw [← h]
  exact (newNode A (.text [])).trans ((insertBefore h1).trans (detach _ _))

theorem setData {n : Nat} {d : NodeData} (h : d.ns = (A.data n).ns) : NsStep A (A.setData n d) := by
  refine ⟨Nat.le_refl _, fun i _ => ?_, fun i h1 h2 => absurd h1 (by simp [Arena.setData] at h2; omega)⟩
  simp only [Arena.setData, Arena.upd]
  split
  · next e => rw [e, h]
  · rfl

end NsStep

/-- Applying a patch keeps the namespaces of existing nodes, and new nodes are HTML (except for the
content brought in by an opaque report). -/
theorem applyPatch_ns {parse : Str → Document} {A A' : Arena NodeData} {slots slots' : Slots}
    {P : Patch} (hP : ∀ q c, P ≠ .opaqueChanged q c)
    (h : applyPatch parse A slots P = .ok (A', slots')) : NsStep A A' := by
  cases P with
  | insertElement p tag attrs cs s =>
    simp only [applyPatch] at h
    obtain ⟨A1, h1, h⟩ := res_bind h
    exact (NsStep.newNode A _).trans ((NsStep.appendAll _ _ _ _ h1).trans (NsStep.insertAt h))
  | insertText p t s => exact (NsStep.newNode A _).trans (NsStep.insertAt h)
  | insertComment p t s => exact (NsStep.newNode A _).trans (NsStep.insertAt h)
  | remove p =>
    simp only [applyPatch] at h
    obtain ⟨n, _, h⟩ := res_bind h
    obtain ⟨A1, h1, h⟩ := res_bind h
    simp only [Except.ok.injEq, Prod.mk.injEq] at h
    rw [← h.1]; exact NsStep.replaceByEmpty h1
  | move p q s =>
    simp only [applyPatch] at h
    obtain ⟨n, _, h⟩ := res_bind h
    split at h
    · obtain ⟨A1, h1, h⟩ := res_bind h
      exact (NsStep.replaceByEmpty h1).trans (NsStep.insertAt h)
    · obtain ⟨A1, h1, h⟩ := res_bind h
      simp only [Except.ok.injEq] at h1
      rw [← h1] at h
      exact (NsStep.detach _ _).trans (NsStep.insertAt h)
  | setText p t =>
    simp only [applyPatch] at h
    obtain ⟨n, _, h⟩ := res_bind h
    split at h
    · next e => simp only [Except.ok.injEq, Prod.mk.injEq] at h; rw [← h.1]; exact .setData (by rw [e])
    · next e => simp only [Except.ok.injEq, Prod.mk.injEq] at h; rw [← h.1]; exact .setData (by rw [e])
    · cases h
  | setAttribute p q v =>
    simp only [applyPatch] at h
    obtain ⟨n, _, h⟩ := res_bind h
    split at h
    · next e => simp only [Except.ok.injEq, Prod.mk.injEq] at h; rw [← h.1]; exact .setData (by rw [e])
    · cases h
  | removeAttribute p q =>
    simp only [applyPatch] at h
    obtain ⟨n, _, h⟩ := res_bind h
    split at h
    · next e => simp only [Except.ok.injEq, Prod.mk.injEq] at h; rw [← h.1]; exact .setData (by rw [e])
    · cases h
  | updateProps p cs =>
    simp only [applyPatch] at h
    obtain ⟨n, _, h⟩ := res_bind h
    split at h
    · next e => simp only [Except.ok.injEq, Prod.mk.injEq] at h; rw [← h.1]; exact .setData (by rw [e])
    · next e => simp only [Except.ok.injEq, Prod.mk.injEq] at h; rw [← h.1]; exact .setData (by rw [e])
    · next e => simp only [Except.ok.injEq, Prod.mk.injEq] at h; rw [← h.1]; exact .setData (by rw [e])
    · simp only [Except.ok.injEq, Prod.mk.injEq] at h; rw [← h.1]; exact .refl
  | opaqueChanged q c => exact absurd rfl (hP q c)

namespace Trace

variable {B : Arena TData} {ins : List Nat} {parse : Str → Document} {g : Nat → Nat} {J : Nat → Prop}
  {w w1 w2 : World} {ops : List EditOp} {ps : List Patch}

/-- Namespaces across a whole run. -/
theorem ns (h : Trace B ins (applyPatch parse) g J w ops ps w2)
    (hP : ∀ P ∈ ps, ∀ q c, P ≠ .opaqueChanged q c) : NsStep w.D w2.D := by
  induction h with
  | nil => exact .refl
  | cons _ hs _ _ _ ih =>
    exact (applyPatch_ns (hP _ (by simp)) hs).trans (ih fun P hP' => hP P (by simp [hP']))

/-- The counterpart of an inserted node is a new document node. -/
theorem c_new (h : Trace B ins (applyPatch parse) g J w ops ps w2)
    (hP : ∀ P ∈ ps, ∀ q c, P ≠ .opaqueChanged q c) {b x : Nat}
    (hw : w.c b = none) (hx : w2.c b = some x) : w.D.next ≤ x := by
  suffices H : ∀ m, m ≤ w.D.next → (∀ y, w.c b = some y → m ≤ y) → m ≤ x from
    H _ (Nat.le_refl _) (fun y hy => by rw [hw] at hy; cases hy)
  clear hw
  induction h with
  | nil => intro m _ h; exact h x hx
  | @cons w w1 w2 op ops P ps hc hs hg hr ht ih =>
    intro m hm hle
    have hst := applyPatch_ns (hP _ (by simp)) hs
    refine ih (fun P hP' => hP P (by simp [hP'])) hx m (Nat.le_trans hm hst.le) fun y hy => ?_
    cases op with
    | insert b' pb pos k =>
      rw [hg.1, Arena.upd_apply] at hy
      split at hy
      · injection hy with hy; omega
      · exact hle y hy
    | updateProps => rw [hg.1] at hy; exact hle y hy
    | setText => rw [hg.1] at hy; exact hle y hy
    | delete => rw [hg.1] at hy; exact hle y hy
    | move => rw [hg.1] at hy; exact hle y hy

/-- A run has no opaque reports: each patch is that of an edit operation. -/
theorem no_report (h : Trace B ins (applyPatch parse) g J w ops ps w2) :
    ∀ P ∈ ps, ∀ q c, P ≠ .opaqueChanged q c := by
  induction h with
  | nil => intro P hP; cases hP
  | cons _ _ _ hr _ ih =>
    intro P hP q c
    rcases List.mem_cons.1 hP with e | e
    · subst e
      intro e
      generalize e' : Patch.opaqueChanged q c = R at e
      rw [e] at hr
      cases hr <;> first | cases e' | (unfold insertPatch at e'; split at e' <;> cases e')
    · exact ih P e q c

end Trace

variable {H : Type} [DecidableEq H] {hashNode : HKind → Option Str → List H → H}
  {old new : Document} {ob nb : Nat}

/-- **C41**, partial (the restrictions of `C01_round_trip_opaque_partial`, and inserted foreign elements
are excluded): before the reports about opaque elements, the body content of the patched document mirrors
that of the new document through `cn`, and every element outside opaque content has
the namespace of the new document if it is a kept one (a node of the old document) or an HTML element.
What is missing is false: an inserted SVG or MathML element becomes an HTML element
(`C41_violated`). -/
theorem C41_namespaces_partial (parse : Str → Document) (h : Comparable old new ob nb)
    (hc : NoCollision hashNode (buildTree old ob) (diffable new) nb)
    (ho : OpaqueAgree hashNode old new ob nb)
    (hf : NoMoveBelowSelf hashNode old new ob nb ∨ NoInversion hashNode old new ob nb) :
    ∃ ps rs A cn body, diff hashNode old new = .ok (ps ++ rs) ∧ (∀ P ∈ rs, P.isReport = true) ∧
      applyPatches parse old ps = .ok { old with arena := A } ∧
      Mirror (diffable new) nb A ob
        (Plan.rootKind (old.arena.data ob).kind ((diffable new).data nb).props) body cn ∧
      ∀ b tag attrs, new.arena.Anc nb b → ¬ InsideOpaque (diffable new) nb b → b ≠ nb →
        (new.arena.data b).kind = .element tag attrs →
        if cn b < old.arena.next then (A.data (cn b)).ns = (new.arena.data b).ns
        else (A.data (cn b)).ns = .html := by
  obtain ⟨f, hd, hb⟩ := h.docRel_old
  obtain ⟨S0, ps, w, cn, _, e, ht, hcn, hm, hfr⟩ := h.run hc ho hf (lawful_native parse _) hd
    (slots := Arena.upd (fun _ => none) 0 (some ob)) (by simp)
  have hp := h.plan hashNode hc ho hb
  refine ⟨ps, _, w.D, cn, _, e, reports_isReport S0, h.applyPatches_eq parse ps ht.apply, hm, ?_⟩
  intro b tag attrs hba hin hne hk
  have hns := ht.ns ht.no_report
  have hwc := hcn b hba hin
  cases hA : (diffMatching (oldTree hashNode old ob) (newTree hashNode new nb)).getA b with
  | none =>
    have hge : old.arena.next ≤ cn b := ht.c_new ht.no_report
      (by show Option.map f _ = none; rw [hA]; rfl) hwc
    rw [if_neg (by omega)]
    refine hns.new _ hge ?_
    have hb' : (diffable new).Anc nb b := diffable_anc hba
    rcases hb'.cases' with e | ⟨q, hq, hq'⟩
    · exact absurd e.symm hne
    · have hqq := hp.new_parent hin hq hq'
      obtain ⟨junk, hk1, _⟩ := hm.kids q hq' hqq.1 (Plan.bodyOf_none hqq.2)
      have : cn b ∈ w.D.children (cn q) := by
        rw [hk1]
        exact List.mem_append_left _ (List.mem_map_of_mem ((hp.bw.mem_iff _ _).2 hq))
      exact (hm.wf.lt_of_parent _ _ ((hm.wf.mem_iff _ _).1 this)).1
  | some a =>
    have hpair := (hp.getA a b).1 hA
    have hnone : b ∉ insertedNodes (script hashNode old new ob nb) := by
      intro hh
      unfold insertedNodes at hh
      rw [List.mem_filterMap] at hh
      obtain ⟨o, ho, e⟩ := hh
      cases o with
      | insert b' pb pos k =>
        simp only [Option.some.injEq] at e
        subst e
        have := ((C10_inserts_are_the_unmatched hp.bw _ _ _ _ _).1 ho).2.1
        rw [hA] at this; cases this
      | _ => cases e
    have e1 := ht.c_stable hnone
    rw [hwc] at e1
    have e2 : some (cn b) = Option.map f
        ((diffMatching (oldTree hashNode old ob) (newTree hashNode new nb)).getA b) := e1
    rw [hA] at e2
    have e3 : cn b = f a := by injection e2
    have ha := (hp.lt a b hpair).1
    have ha0 : a ≠ 0 := by
      rintro rfl
      exact hne (hp.fn1 hpair hp.root)
    obtain ⟨q, hq⟩ := hb.par a ha ha0
    have hlt : f a < old.arena.next := (h.old.sound.arena.wf.lt_of_parent _ _ hq).1
    rw [e3, if_pos hlt, hns.old _ hlt]
    show (old.arena.data (f a)).ns = _
    have hk2 := hp.kind a b hpair
    rw [hb.data a ha ha0] at hk2
    have hk3 : (tdataOf (old.arena.data (f a))).kind = .element tag (new.arena.data b).ns := by
      rw [hk2]
      show (tdataOf (new.arena.data b)).kind = _
      unfold tdataOf; rw [hk]
    unfold tdataOf at hk3
    split at hk3 <;> simp_all

/-- A document with the namespaces of some nodes changed to SVG. -/
def Document.withSvg (D : Document) (l : List Nat) : Document :=
  { D with arena := { D.arena with
      data := fun n => if n ∈ l then { D.arena.data n with ns := .svg } else D.arena.data n } }

theorem Document.withSvg_kind (D : Document) (l : List Nat) (n : Nat) :
    ((D.withSvg l).arena.data n).kind = (D.arena.data n).kind := by
  simp only [withSvg]; split <;> rfl

theorem Document.withSvg_anc {D : Document} {l : List Nat} {a b : Nat}
    (h : (D.withSvg l).arena.Anc a b) : D.arena.Anc a b := by
  induction h with
  | refl => exact .refl
  | step hp _ ih => exact .step hp ih

theorem Document.Plain.withSvg {D : Document} {b : Nat} (h : D.Plain b) (l : List Nat)
    (hD : D.root < D.arena.next) (hw : (D.withSvg l).body = some b) : (D.withSvg l).Plain b := by
  refine ⟨⟨⟨?_, ?_, ?_, ?_⟩, hD⟩, hw, ?_⟩
  · exact ⟨h.sound.arena.wf.lt_of_parent, h.sound.arena.wf.mem_iff, h.sound.arena.wf.nodup,
      h.sound.arena.wf.acyclic⟩
  · intro n hn
    simp only [Document.withSvg_kind] at hn
    exact h.sound.arena.leaf n hn
  · intro n tag attrs hn
    rw [Document.withSvg_kind] at hn
    exact h.sound.arena.uniq n tag attrs hn
  · intro n p hp
    rw [Document.withSvg_kind]
    exact h.sound.arena.nodoc n p hp
  · intro n attrs hn hk
    rw [Document.withSvg_kind] at hk
    exact h.apart n attrs (Document.withSvg_anc hn) hk

/-- The content `<svg><u></u><v></v><w></w></svg>`, or the same with a `<path>` at the end. -/
def svgContent (path : Bool) : List Html :=
  [ex "svg" [] ([ex "u" [] [], ex "v" [] [], ex "w" [] []] ++ if path then [ex "path" [] []] else [])]

/-- A document with this content in which all elements of the body are SVG elements. -/
def svgDoc (path : Bool) : Document := (Document.ofForest (svgContent path)).withSvg [3, 4, 5, 6, 7]

/-- **C41 is violated**: a `<path>` inserted below a kept `<svg>` is an SVG element in the new document
and an HTML element in the patched one. The serialized HTML is the same, so comparing HTML does not
show it. -/
theorem C41_violated : (match diff Shape.node (svgDoc false) (svgDoc true) with
    | .ok ps => match applyPatches (fun _ => .ofForest []) (svgDoc false) ps with
      | .ok D => decide (D.toBodyHtml = (svgDoc true).toBodyHtml ∧
        D.arena.children 2 = [3] ∧ D.arena.data 3 = ⟨.element "svg".toList [], .svg⟩ ∧
        (svgDoc true).arena.children 3 = [4, 5, 6, 7] ∧ D.arena.children 3 = [4, 5, 6, 7] ∧
        (svgDoc true).arena.data 7 = ⟨.element "path".toList [], .svg⟩ ∧
        D.arena.data 7 = ⟨.element "path".toList [], .html⟩)
      | .error _ => false
    | .error _ => false) = true := by decide +kernel

/-- The hypotheses of `C41_namespaces_partial` hold for these documents; the `<svg>` is kept. -/
example : Comparable (svgDoc false) (svgDoc true) 2 2 ∧
    NoCollision Shape.node (buildTree (svgDoc false) 2) (diffable (svgDoc true)) 2 ∧
    OpaqueAgree Shape.node (svgDoc false) (svgDoc true) 2 2 ∧
    NoMoveBelowSelf Shape.node (svgDoc false) (svgDoc true) 2 2 := by
  refine ⟨?_, noCollision_shape _ _ _, by unfold OpaqueAgree AgreeOpaque; decide +kernel, ?_⟩
  · have h := comparable_ofForest (cs := svgContent false) (ds := svgContent true)
      (by decide +kernel) (by decide +kernel)
    exact ⟨h.old.withSvg _ (by decide +kernel) (by decide +kernel),
      h.new.withSvg _ (by decide +kernel) (by decide +kernel), by decide +kernel⟩
  · intro S hS
    have : script Shape.node (svgDoc false) (svgDoc true) 2 2 =
        [.insert 7 3 3 (.element "path".toList .svg)] := by decide +kernel
    rw [this]
    simp only [ancestorFree]
    split <;> rfl

end Hotmeal
