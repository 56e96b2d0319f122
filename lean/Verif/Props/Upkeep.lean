import Verif.Lemmas.SoundRun
import Verif.Props.Growth
import Verif.Props.Canonical
import Verif.Lemmas.Mount

set_option autoImplicit false
set_option linter.unusedSectionVars false

/-!
# C77: a document that is kept up to date with `diff` and `apply_patches`
-/

namespace Hotmeal

variable {H : Type} [DecidableEq H] {hashNode : HKind → Option Str → List H → H}
  {old new : Document} {ob nb : Nat}

/-- Keep a document up to date: each version is compared with the document as it is now, and the document gets
the patches. -/
def Document.upkeep (hashNode : HKind → Option Str → List H → H) (parse : Str → Document) (D : Document) :
    List Document → Res Document
  | [] => .ok D
  | w :: ws => do
    let ps ← diff hashNode D w
    let D ← applyPatches parse D ps
    D.upkeep hashNode parse ws

/-- A document with a body in the namespace `ns` and without a second body in it, in which exactly the elements
with names in `P` are opaque. These are empty: they are places for scripts to draw into. -/
def Document.Neat (P : Str → Prop) (ns : Ns) (D : Document) : Prop :=
  ∃ b, D.Plain b ∧ D.Islands (fun t _ => P t) b ∧ (D.arena.data b).ns = ns

/-- Every element of the body ranks above its parent: no element occurs in an element of the same tag, and more
generally tags are layered. -/
def Document.TagsLayered (rank : Str → Nat) (D : Document) : Prop :=
  ∀ b n p t a t' a', D.body = some b → D.arena.Anc b p → D.arena.parent n = some p →
    (D.arena.data p).kind = .element t a → (D.arena.data n).kind = .element t' a' → rank t < rank t'

/-- `diff` from `D` to `w` meets no hash collision. -/
def Quiet (hashNode : HKind → Option Str → List H → H) (D w : Document) : Prop :=
  ∀ ob nb, D.body = some ob → w.body = some nb → NoCollision hashNode (buildTree D ob) (diffable w) nb

/-- `diff` from `D` to `w` does not move a node below itself. -/
def Straight (hashNode : HKind → Option Str → List H → H) (D w : Document) : Prop :=
  ∀ ob nb, D.body = some ob → w.body = some nb →
    NoMoveBelowSelf hashNode D w ob nb ∨ NoInversion hashNode D w ob nb

/-! ### One update -/

/-- Where the nodes below the body of a patched document come from. -/
structure Descends (new : Document) (nb : Nat) (D : Document) (ob : Nat) (h : Nat → Nat) : Prop where
  root : h nb = ob
  node : ∀ n, D.arena.Anc ob n →
    (∃ b, new.arena.Anc nb b ∧ n = h b) ∨ (D.arena.data n).kind = .text []
  child : ∀ n b, new.arena.Anc nb b → D.arena.parent n = some (h b) →
    (∃ c, new.arena.parent c = some b ∧ n = h c) ∨ (D.arena.data n).kind = .text []
  data : ∀ b, new.arena.Anc nb b → b ≠ nb → (D.arena.data (h b)).kind = (new.arena.data b).kind

theorem Document.Islands.opaque_childless {P : Str → Ns → Prop} {D : Document} {b n : Nat} (h : D.Islands P b)
    (hn : D.arena.Anc b n) (e : ((diffable D).data n).props.isOpaque = true) : D.arena.children n = [] := by
  have e : (tdataOf (D.arena.data n)).props.isOpaque = true := e
  cases hk : (D.arena.data n).kind with
  | element tag attrs => exact (h n tag attrs hn hk).2 (by simpa only [tdataOf, hk] using e)
  | _ => simp only [tdataOf, hk] at e; cases e

theorem Document.Islands.not_inside {P : Str → Ns → Prop} {D : Document} {b n : Nat} (h : D.Islands P b)
    (hw : D.arena.WF) : ¬ InsideOpaque (diffable D) b n := by
  rintro ⟨o, h1, h2, h3, h4⟩
  have hk := h.opaque_childless (anc_of_diffable h1) h2
  replace h3 : D.arena.Anc o n := anc_of_diffable h3
  clear h1 h2
  induction h3 with
  | refl => exact h4 rfl
  | @step n p hp ha ih =>
    by_cases e : p = o
    · subst e
      have := (hw.mem_iff _ _).2 hp
      rw [hk] at this; cases this
    · exact ih e

theorem descends_of_mirror {D : Document} {P : Str → Ns → Prop} {k0 : NodeKind} {body : Nat → Option (List Html)}
    {h : Nat → Nat} (hm : Mirror (diffable new) nb D.arena ob k0 body h) (hn : new.Plain nb) (hcl : new.Islands P nb)
    (hb : ∀ b, body b = none ↔ ((diffable new).data b).props.isOpaque = false)
    (hs : ∀ b c, new.arena.Anc nb b → body b = some c → c = []) :
    Descends new nb D ob h ∧
      ∀ b, new.arena.Anc nb b → ((diffable new).data b).props.isOpaque = true → D.arena.children (h b) = [] := by
  have hopen : ∀ b, ¬ InsideOpaque (diffable new) nb b := fun b => hcl.not_inside hn.sound.arena.wf
  have hempty : ∀ b, new.arena.Anc nb b → ((diffable new).data b).props.isOpaque = true →
      D.arena.children (h b) = [] := by
    intro b hb' e
    cases hbo : body b with
    | none => rw [(hb b).1 hbo] at e; cases e
    | some c =>
      have := hm.opq b c (diffable_anc hb') (hopen b) hbo
      rw [hs b c hb' hbo] at this
      exact List.map_eq_nil_iff.1 this
  have hchild : ∀ n b, new.arena.Anc nb b → D.arena.parent n = some (h b) →
      (∃ c, new.arena.parent c = some b ∧ n = h c) ∨ (D.arena.data n).kind = .text [] := by
    intro n b hb' hp
    have hmem := (hm.wf.mem_iff _ _).2 hp
    cases hbo : body b with
    | some c =>
      have e : ((diffable new).data b).props.isOpaque = true := by
        cases e : ((diffable new).data b).props.isOpaque with
        | true => rfl
        | false => rw [(hb b).2 e] at hbo; cases hbo
      rw [hempty b hb' e] at hmem; cases hmem
    | none =>
      obtain ⟨junk, hk, hj⟩ := hm.kids b (diffable_anc hb') (hopen b) hbo
      rw [hk] at hmem
      rcases List.mem_append.1 hmem with hmem | hmem
      · obtain ⟨c, hc, rfl⟩ := List.mem_map.1 hmem
        exact .inl ⟨c, (hn.sound.arena.wf.mem_iff _ _).1 hc, rfl⟩
      · exact .inr (hj n hmem)
  refine ⟨⟨hm.root, ?_, hchild, ?_⟩, hempty⟩
  · intro n hn'
    induction hn' with
    | refl => exact .inl ⟨nb, .refl, hm.root.symm⟩
    | @step n p hp _ ih =>
      rcases ih with ⟨b, hb', rfl⟩ | hk
      · rcases hchild _ b hb' hp with ⟨c, hc, rfl⟩ | hk
        · exact .inl ⟨c, .step hc hb', rfl⟩
        · exact .inr hk
      · have hmem := (hm.wf.mem_iff _ _).2 hp
        rw [hm.leaf _ _ hk] at hmem; cases hmem
  · intro b hb' hne
    rw [hm.data b (diffable_anc hb') (hopen b) hne]
    exact kindOf_tdataOf (Comparable.not_document new hn hb')

/-- **C77** for one update, partial (same restrictions as `C01_round_trip_partial`; opaque elements are empty and
have names of their own): after `diff` and `apply_patches` the document has the body of the new version, and it is
again one to which all of this applies. In particular its links form a tree, only elements have children, no element
has two attributes of the same name, opaque elements are empty, and the body is the same node in the same
namespace. -/
theorem C77_one_update_partial (parse : Str → Document) {P : Str → Prop} (hP : ¬ P "body".toList)
    (h : Comparable old new ob nb) (hc : NoCollision hashNode (buildTree old ob) (diffable new) nb)
    (ho : old.Islands (fun t _ => P t) ob) (hn : new.Islands (fun t _ => P t) nb)
    (hf : NoMoveBelowSelf hashNode old new ob nb ∨ NoInversion hashNode old new ob nb) :
    ∃ ps D g, diff hashNode old new = .ok ps ∧ applyPatches parse old ps = .ok D ∧
      D.toBodyHtml = new.toBodyHtml ∧ Html.pruneL D.bodyForest = Html.pruneL new.bodyForest ∧
      D.Plain ob ∧ D.Islands (fun t _ => P t) ob ∧ (D.arena.data ob).ns = (old.arena.data ob).ns ∧
      Descends new nb D ob g := by
  have hq : OpaqueFixed hashNode old new ob nb := opaqueFixed_of_islands h hc (fun _ => hP) ho hn
  obtain ⟨ps0, D0, e1, e2, e3, e4⟩ := C01_round_trip_partial parse h hc hq hf
  obtain ⟨f, hd, hbt⟩ := h.docRel_old
  obtain ⟨S0, ps, w, g, hS0, e, ht, hg, hm, hfr⟩ := h.run hc hq.agree hf (lawful_native parse ob) hd
    (slots := Arena.upd (fun _ => none) 0 (some ob)) (by simp)
  rw [h.reports_nil hc hq.agree hq.same, List.append_nil] at e
  have ea := h.applyPatches_eq parse ps ht.apply
  rw [e1] at e; cases e
  rw [e2] at ea; cases ea
  obtain ⟨hob, battrs, hbk⟩ := Document.body_spec h.old.body
  have hobp := (h.old.sound.arena.wf.mem_iff _ _).1 hob
  have hobl := (h.old.sound.arena.wf.lt_of_parent _ _ hobp).1
  have hfrom := C54_content_comes_from_the_new_page h.old.sound h.new.sound e1
  have hheld : SoundRun.Held ob old.arena (Arena.upd (fun _ => none) 0 (some ob)) := by
    refine ⟨h.old.sound.arena, by simp, fun k n e => ?_⟩
    rw [Arena.upd_apply] at e
    split at e
    · cases e
      exact ⟨hobl, by rw [hbk]; intro e; cases e⟩
    · cases e
  obtain ⟨hs, hnm⟩ := SoundRun.trace ht hheld fun P hP => (hfrom P hP).uniqContent h.new.sound.arena
  have hcon := h.contents_of (D := old.arena) (f := f) (φ := id) hc hq.agree fun a b hab e =>
    h.same_forest hc hq.agree hq.same hbt hab e
  obtain ⟨hdes, hempty⟩ : Descends new nb { old with arena := w.D } ob g ∧ _ :=
    descends_of_mirror hm h.new hn (fun b => Comparable.bodyOf_none_iff b) fun b c hb e => by
      have eo : ((diffable new).data b).props.isOpaque = true := by
        cases eo : ((diffable new).data b).props.isOpaque with
        | true => rfl
        | false => rw [(Comparable.bodyOf_none_iff b).2 eo] at e; cases e
      obtain ⟨c', e', hc'⟩ := hcon.some b hb (hn.not_inside h.new.sound.arena.wf) eo
      rw [e] at e'; cases e'
      have hc' : c = new.arena.forest b := hc'
      rw [hc', Arena.forest, hn.opaque_childless hb eo]; rfl
  have hrk : ∃ attrs, (w.D.data ob).kind = .element "body".toList attrs ∧ attrs.isOpaque = false := by
    rw [hm.rootK, hbk]
    refine ⟨_, rfl, ?_⟩
    split
    · cases e : Attrs.isOpaque battrs with
      | false => rfl
      | true => exact absurd ((ho ob _ _ .refl hbk).1.1 e) hP
    · cases e : ((diffable new).data nb).props.isOpaque with
      | false => rfl
      | true =>
        obtain ⟨_, nattrs, hnk⟩ := Document.body_spec h.new.body
        refine absurd ((hn nb _ _ .refl hnk).1.1 ?_) hP
        have e : (tdataOf (new.arena.data nb)).props.isOpaque = true := e
        simpa only [tdataOf, hnk] using e
  have hbody : ({ old with arena := w.D } : Document).body = some ob :=
    hfr.body_eq h.old.sound.arena.wf h.old.body (by obtain ⟨a, ha, _⟩ := hrk; exact ⟨a, ha⟩)
  refine ⟨ps0, _, g, e1, e2, e3, e4, ⟨⟨hs, ?_⟩, hbody, ?_⟩, ?_, hnm.2 ob hobl, hdes⟩
  · exact Nat.lt_of_lt_of_le h.old.sound.root_lt hfr.next_le
  · intro n attrs hn' hk
    rcases hdes.node n hn' with ⟨b, hb, rfl⟩ | hk'
    · by_cases e : b = nb
      · subst e; exact hdes.root
      · rw [hdes.data b hb e] at hk
        exact absurd (h.new.apart b attrs hb hk) e
    · rw [hk'] at hk; cases hk
  · intro n tag attrs hn' hk
    rcases hdes.node n hn' with ⟨b, hb, rfl⟩ | hk'
    · by_cases e : b = nb
      · subst e
        obtain ⟨a, ha, ha'⟩ := hrk
        rw [hdes.root] at hk
        have hk : (w.D.data ob).kind = _ := hk
        rw [ha] at hk; cases hk
        exact ⟨⟨(fun e => by rw [ha'] at e; cases e), fun e => absurd e hP⟩, (fun e => by rw [ha'] at e; cases e)⟩
      · rw [hdes.data b hb e] at hk
        exact ⟨(hn b tag attrs hb hk).1, fun e => hempty b hb (by
          show (tdataOf (new.arena.data b)).props.isOpaque = true
          simpa only [tdataOf, hk] using e)⟩
    · rw [hk'] at hk; cases hk

/-- Layers survive an update. -/
theorem tagsLayered_of_descends {rank : Str → Nat} {D : Document} {g : Nat → Nat}
    (hd : Descends new nb D ob g) (hD : D.body = some ob) (hn : new.body = some nb)
    (hl : new.TagsLayered rank) : D.TagsLayered rank := by
  intro b n p t a t' a' hb hp hnp hkp hkn
  rw [hD] at hb; cases hb
  have htag : ∀ c t a, new.arena.Anc nb c → (D.arena.data (g c)).kind = .element t a →
      ∃ a', (new.arena.data c).kind = .element t a' := by
    intro c t a hc hk
    by_cases e : c = nb
    · subst e
      rw [hd.root] at hk
      obtain ⟨_, ba, hba⟩ := Document.body_spec hD
      obtain ⟨_, na, hna⟩ := Document.body_spec hn
      rw [hba] at hk; cases hk
      exact ⟨na, hna⟩
    · exact ⟨a, by rw [← hd.data c hc e]; exact hk⟩
  rcases hd.node p hp with ⟨b, hb, rfl⟩ | hk
  · rcases hd.child n b hb hnp with ⟨c, hc, rfl⟩ | hk
    · obtain ⟨a1, h1⟩ := htag b _ _ hb hkp
      obtain ⟨a2, h2⟩ := htag c _ _ (.step hc hb) hkn
      exact hl nb c b t a1 t' a2 hn hb hc h1 h2
    · rw [hk] at hkn; cases hkn
  · rw [hk] at hkp; cases hkp

/-- The ranks of tags that occur in a document are bounded. -/
theorem rank_bounded (rank : Str → Nat) (D : Document) (N : Nat) :
    ∃ M, ∀ n t a, n < N → (D.arena.data n).kind = .element t a → rank t ≤ M := by
  induction N with
  | zero => exact ⟨0, by intro n t a h; omega⟩
  | succ N ih =>
    obtain ⟨M, hM⟩ := ih
    refine ⟨max M (match (D.arena.data N).kind with | .element t _ => rank t | _ => 0), ?_⟩
    intro n t a hn hk
    by_cases e : n = N
    · subst e; rw [hk]; exact Nat.le_max_right _ _
    · exact Nat.le_trans (hM n t a (by omega) hk) (Nat.le_max_left _ _)

/-- A rank for all kinds of nodes: text and comments are above all elements. -/
def kindRank (rank : Str → Nat) (M : Nat) : HKind → Nat
  | .element t _ => min (rank t) M
  | _ => M + 1

theorem layered_of_tagsLayered {rank : Str → Nat} {D : Document} {b M : Nat} (hp : D.Plain b)
    (hl : D.TagsLayered rank)
    (hM : ∀ n t a, n < D.arena.next → (D.arena.data n).kind = .element t a → rank t ≤ M) :
    Layered (kindRank rank M) D b := by
  intro n p hnp hanc
  have hlt := hp.sound.arena.wf.lt_of_parent _ _ hnp
  obtain ⟨t, a, hk⟩ := (hp.sound.arena.container_of_child hnp).resolve_left
    (Comparable.not_document D hp hanc)
  have hM1 := hM p t a hlt.2 hk
  cases hkn : (D.arena.data n).kind with
  | element t' a' =>
    have := hl b n p t a t' a' hp.body hanc hnp hk hkn
    have := hM n t' a' hlt.1 hkn
    simp only [tdataOf, hk, hkn, kindRank]
    omega
  | text s => simp only [tdataOf, hk, hkn, kindRank]; omega
  | comment s => simp only [tdataOf, hk, hkn, kindRank]; omega
  | document => exact absurd hkn (hp.sound.arena.nodoc n p hnp)

/-- Documents with layered tags never give a Move of a node below itself. -/
theorem straight_of_tagsLayered {P : Str → Prop} (hP : ¬ P "body".toList) {ns : Ns} {rank : Str → Nat}
    {D w : Document} (hD : D.Neat P ns) (hw : w.Neat P ns) (hq : Quiet hashNode D w) (h1 : D.TagsLayered rank) (h2 : w.TagsLayered rank) : Straight hashNode D w := by
  intro ob nb eo en
  obtain ⟨b, p1, c1, n1⟩ := hD
  rw [p1.body] at eo; cases eo
  obtain ⟨b', p2, c2, n2⟩ := hw
  rw [p2.body] at en; cases en
  have h : Comparable D w ob nb := ⟨p1, p2, by rw [n1, n2]⟩
  obtain ⟨M1, hM1⟩ := rank_bounded rank D D.arena.next
  obtain ⟨M2, hM2⟩ := rank_bounded rank w w.arena.next
  exact .inr (noInversion_of_layered h (hq ob nb p1.body p2.body) (opaqueFixed_of_islands h (hq ob nb p1.body p2.body) (fun _ => hP) c1 c2).agree
    (layered_of_tagsLayered (M := max M1 M2) p1 h1 fun n t a hn hk =>
      Nat.le_trans (hM1 n t a hn hk) (Nat.le_max_left _ _))
    (layered_of_tagsLayered (M := max M1 M2) p2 h2 fun n t a hn hk =>
      Nat.le_trans (hM2 n t a hn hk) (Nat.le_max_right _ _)))

/-! ### Any number of updates -/

theorem upkeep_append (hashNode : HKind → Option Str → List H → H) (parse : Str → Document) (D : Document)
    (ws : List Document) {D1 : Document} (e : D.upkeep hashNode parse ws = .ok D1) (vs : List Document) :
    D.upkeep hashNode parse (ws ++ vs) = D1.upkeep hashNode parse vs := by
  induction ws generalizing D with
  | nil => cases e; rfl
  | cons w ws ih =>
    obtain ⟨ps, e1, e⟩ := res_bind e
    obtain ⟨D2, e2, e⟩ := res_bind e
    simp only [List.cons_append, Document.upkeep, e1, e2, bind, Except.bind]
    exact ih D2 e

/-- **C77**, partial. A document is compared with each version in turn and gets the patches of that comparison.
However many versions there are, no step fails, and afterwards the document has the body HTML of the last version,
and even its body content up to empty text nodes. No element ever has more children than the elements of the
versions and of the document at the start had.

Missing from the full statement: opaque elements that the server fills or whose names ordinary elements have, a
second body element inside a body (both `Neat`), hash collisions (`Quiet`), and steps with a Move of a node below itself (`Straight`), for which even one step may go
wrong (`C01_violated`). -/
theorem C77_document_is_kept_up_to_date_partial (parse : Str → Document) {P : Str → Prop} (hP : ¬ P "body".toList) {ns : Ns} :
    ∀ (ws : List Document) {D : Document}, D.Neat P ns → (∀ w ∈ ws, w.Neat P ns) →
      (∀ ws1 w ws2 D1, ws = ws1 ++ w :: ws2 → D.upkeep hashNode parse ws1 = .ok D1 →
        Quiet hashNode D1 w ∧ Straight hashNode D1 w) →
      ∃ D', D.upkeep hashNode parse ws = .ok D' ∧ D'.Neat P ns ∧
        (∀ w, ws.getLast? = some w → D'.toBodyHtml = w.toBodyHtml ∧
          Html.pruneL D'.bodyForest = Html.pruneL w.bodyForest) ∧
        ∀ K, D.arena.Fan K → (∀ w ∈ ws, w.arena.Fan K) → D'.arena.Fan K
  | [], D, hD, _, _ => ⟨D, rfl, hD, (by intro w e; cases e), fun K h _ => h⟩
  | w :: ws, D, hD, hws, hstep => by
    obtain ⟨hq, hst⟩ := hstep [] w ws D rfl rfl
    obtain ⟨ob, p1, c1, n1⟩ := hD
    obtain ⟨nb, p2, c2, n2⟩ := hws w (by simp)
    have h : Comparable D w ob nb := ⟨p1, p2, by rw [n1, n2]⟩
    have hc := hq ob nb p1.body p2.body
    have hf := hst ob nb p1.body p2.body
    obtain ⟨ps, D1, g, e1, e2, e3, e4, q1, q2, q3, _⟩ := C77_one_update_partial parse hP h hc c1 c2 hf
    have e : D.upkeep hashNode parse [w] = .ok D1 := by
      simp only [Document.upkeep, e1, e2, bind, Except.bind]
    obtain ⟨D', e', hn', hl', hk'⟩ := C77_document_is_kept_up_to_date_partial parse hP ws (D := D1)
      ⟨ob, q1, q2, by rw [q3, n1]⟩ (fun v hv => hws v (by simp [hv])) fun ws1 v ws2 D2 ew ed => by
        refine hstep (w :: ws1) v ws2 D2 (by rw [ew]; rfl) ?_
        rw [← ed]
        exact upkeep_append hashNode parse D [w] e ws1
    refine ⟨D', ?_, hn', ?_, ?_⟩
    · rw [← e']; exact upkeep_append hashNode parse D [w] e ws
    · intro v hv
      cases ws with
      | nil =>
        cases hv; cases e'
        exact ⟨e3, e4⟩
      | cons u us => exact hl' v (by rw [← hv]; simp)
    · intro K hK hKs
      refine hk' K ?_ fun v hv => hKs v (by simp [hv])
      obtain ⟨ps', D2, e1', e2', hK2⟩ := C61_document_does_not_grow_partial parse h hc
        (opaqueFixed_of_islands h hc (fun _ => hP) c1 c2) hf hK (hKs w (by simp))
      rw [e1] at e1'; cases e1'
      rw [e2] at e2'; cases e2'
      exact hK2

/-- **C77** when tags are layered in the document and in all versions: no condition on the edit scripts is left.
Partial: opaque elements with content, a second body element and hash collisions are still excluded. -/
theorem C77_layered_document_is_kept_up_to_date_partial (parse : Str → Document) {P : Str → Prop} (hP : ¬ P "body".toList) {ns : Ns} {rank : Str → Nat} :
    ∀ (ws : List Document) {D : Document}, D.Neat P ns → D.TagsLayered rank →
      (∀ w ∈ ws, w.Neat P ns ∧ w.TagsLayered rank) →
      (∀ ws1 w ws2 D1, ws = ws1 ++ w :: ws2 → D.upkeep hashNode parse ws1 = .ok D1 → Quiet hashNode D1 w) →
      ∃ D', D.upkeep hashNode parse ws = .ok D' ∧ ∀ w, ws.getLast? = some w →
        D'.toBodyHtml = w.toBodyHtml ∧ Html.pruneL D'.bodyForest = Html.pruneL w.bodyForest := by
  intro ws D hD hl hws hq
  have hlay : ∀ (ws1 : List Document) {D : Document}, D.Neat P ns → D.TagsLayered rank →
      (∀ w ∈ ws1, w.Neat P ns ∧ w.TagsLayered rank) →
      (∀ ws0 w ws2 D1, ws1 = ws0 ++ w :: ws2 → D.upkeep hashNode parse ws0 = .ok D1 → Quiet hashNode D1 w) →
      ∀ D1, D.upkeep hashNode parse ws1 = .ok D1 → D1.Neat P ns ∧ D1.TagsLayered rank := by
    intro ws1
    induction ws1 with
    | nil => intro D hD hl _ _ D1 e; cases e; exact ⟨hD, hl⟩
    | cons w ws1 ih =>
      intro D hD hl hws hq D1 e
      obtain ⟨hwn, hwl⟩ := hws w (by simp)
      have hqw := hq [] w ws1 D rfl rfl
      have hst := straight_of_tagsLayered hP hD hwn hqw hl hwl
      obtain ⟨ob, p1, c1, n1⟩ := hD
      obtain ⟨nb, p2, c2, n2⟩ := hwn
      have h : Comparable D w ob nb := ⟨p1, p2, by rw [n1, n2]⟩
      obtain ⟨ps, D2, g, e1, e2, _, _, q1, q2, q3, q4⟩ := C77_one_update_partial parse hP h
        (hqw ob nb p1.body p2.body) c1 c2 (hst ob nb p1.body p2.body)
      have e0 : D.upkeep hashNode parse [w] = .ok D2 := by
        simp only [Document.upkeep, e1, e2, bind, Except.bind]
      have ea := upkeep_append hashNode parse D [w] e0
      exact ih ⟨ob, q1, q2, by rw [q3, n1]⟩ (tagsLayered_of_descends q4 q1.body p2.body hwl)
        (fun v hv => hws v (by simp [hv]))
        (fun ws0 v ws2 D3 ew ed => hq (w :: ws0) v ws2 D3 (by rw [ew]; rfl) (by
          rw [← ed]; exact ea ws0)) D1 (by rw [← ea ws1]; exact e)
  obtain ⟨D', e, _, h, _⟩ := C77_document_is_kept_up_to_date_partial (hashNode := hashNode) parse hP ws hD
    (fun w hw => (hws w hw).1) fun ws1 w ws2 D1 ew ed => by
      have hqw := hq ws1 w ws2 D1 ew ed
      obtain ⟨h1, h2⟩ := hlay ws1 hD hl (fun v hv => hws v (by rw [ew]; simp [hv]))
        (fun ws0 v ws3 D2 ew' ed' => hq ws0 v (ws3 ++ w :: ws2) D2 (by rw [ew, ew']; simp) ed') D1 ed
      obtain ⟨h3, h4⟩ := hws w (by rw [ew]; simp)
      exact ⟨hqw, straight_of_tagsLayered hP h1 h3 hqw h2 h4⟩
  exact ⟨D', e, h⟩

/-! ### A concrete case -/

theorem neat_ofForest {P : Str → Bool} {o : Bool} {cs : List Html} (h : Html.tidyL o cs = true)
    (hP : islandsB (fun t _ => P t) (.ofForest cs) = true) : (Document.ofForest cs).Neat (fun t => P t = true) .html := by
  have hc := comparable_ofForest_tidy h h
  obtain ⟨hbm, _, _⟩ := Document.body_spec hc.old.body
  exact ⟨2, hc.old, islands_of_islandsB hc.old.sound.arena.wf
    (hc.old.sound.arena.wf.lt_of_parent _ _ ((hc.old.sound.arena.wf.mem_iff _ _).1 hbm)).1 hP,
    by rw [(ofForest_tidy cs h).2.2.2.1]; rfl⟩

/-- A map that a script draws into an opaque element. -/
def isMap (t : Str) : Bool := decide (t = "x-map".toList)

/-- `ex1` with a place for a map at the end. -/
def exM1 : List Html := ex1 ++ [ex "x-map" [("data-hotmeal-opaque", "")] []]
/-- `ex2` with the place for the map at the front, and with another attribute. -/
def exM2 : List Html := ex "x-map" [("data-hotmeal-opaque", ""), ("class", "wide")] [] :: ex2

/-- Layers, checked node by node. -/
def tagsLayeredB (rank : Str → Nat) (D : Document) : Bool :=
  (List.range D.arena.next).all fun n => match D.arena.parent n with
    | none => true
    | some p => match (D.arena.data p).kind, (D.arena.data n).kind with
      | .element t _, .element t' _ => decide (rank t < rank t')
      | _, _ => true

theorem tagsLayered_of_B {rank : Str → Nat} {D : Document} (hw : D.arena.WF)
    (h : tagsLayeredB rank D = true) : D.TagsLayered rank := by
  intro b n p t a t' a' _ _ hnp hkp hkn
  have := List.all_eq_true.1 h n (List.mem_range.2 (hw.lt_of_parent _ _ hnp).1)
  rw [hnp] at this
  simp only [hkp, hkn] at this
  simpa using this

/-- Lists are above the body, items and paragraphs above lists, bold text above these. -/
def listRank (t : Str) : Nat :=
  if t = "html".toList then 0 else if t = "ul".toList ∨ t = "x-map".toList then 2 else if t = "b".toList then 4 else
    if t = "li".toList ∨ t = "p".toList then 3 else 1

/-- The hypotheses of `C77_layered_document_is_kept_up_to_date_partial` hold for a page with an opaque element and a
list that is changed and changed back and emptied, and the first two steps have patches. -/
example : ¬ isMap "body".toList = true ∧ (Document.ofForest exM1).Neat (fun t => isMap t = true) .html ∧
    (Document.ofForest exM1).TagsLayered listRank ∧
    (∀ w ∈ [Document.ofForest exM2, .ofForest exM1, .ofForest []],
      w.Neat (fun t => isMap t = true) .html ∧ w.TagsLayered listRank) ∧
    (∀ D w, Quiet Shape.node D w) ∧
    (match diff Shape.node (.ofForest exM1) (.ofForest exM2), diff Shape.node (.ofForest exM2) (.ofForest exM1) with
      | .ok ps, .ok qs => !ps.isEmpty && !qs.isEmpty
      | _, _ => false) = true := by
  have h1 : Html.tidyL true exM1 = true := by decide +kernel
  have h2 : Html.tidyL true exM2 = true := by decide +kernel
  have n1 : (Document.ofForest exM1).Neat (fun t => isMap t = true) .html := neat_ofForest h1 (by decide +kernel)
  have l1 : (Document.ofForest exM1).TagsLayered listRank :=
    tagsLayered_of_B (comparable_ofForest_tidy h1 h1).old.sound.arena.wf (by decide +kernel)
  refine ⟨by decide +kernel, n1, l1, ?_, fun D w ob nb _ _ => noCollision_shape _ _ _, by decide +kernel⟩
  intro w hw
  simp only [List.mem_cons, List.not_mem_nil, or_false] at hw
  rcases hw with rfl | rfl | rfl
  · exact ⟨neat_ofForest h2 (by decide +kernel),
      tagsLayered_of_B (comparable_ofForest_tidy h2 h2).old.sound.arena.wf (by decide +kernel)⟩
  · exact ⟨n1, l1⟩
  · exact ⟨neat_ofForest (o := true) (by decide +kernel) (by decide +kernel),
      tagsLayered_of_B (ofForest_sound _ (by decide +kernel)).arena.wf (by decide +kernel)⟩

/-! ### What does not hold -/

theorem neat_plain {cs : List Html} (h : Html.plainL cs = true)
    (hP : islandsB (fun _ _ => false) (.ofForest cs) = true) : (Document.ofForest cs).Neat (fun _ => False) .html := by
  obtain ⟨b, h1, h2, h3⟩ := neat_ofForest (P := fun _ => false) (cs := cs) h hP
  exact ⟨b, h1, by simpa using h2, h3⟩

/-- **C77** is violated: with a Move of a node below itself a single step fails. -/
theorem C77_violated : ∃ v w : Document, v.Neat (fun _ => False) .html ∧ w.Neat (fun _ => False) .html ∧
    (∀ D E, Quiet Shape.node D E) ∧
    (match v.upkeep Shape.node (fun _ => Document.new) [w] with
      | .ok _ => false
      | .error e => decide (e = .pathOutOfBounds 0)) = true :=
  ⟨.ofForest bad1, .ofForest bad2, neat_plain (by decide +kernel) (by decide +kernel), neat_plain (by decide +kernel) (by decide +kernel),
    fun _ _ _ _ _ _ => noCollision_shape _ _ _, by decide +kernel⟩

/-- A paragraph below an opaque element with content from the server. -/
def filled1 : List Html := [ex "x-map" [("data-hotmeal-opaque", "")] [.text "a".toList], ex "p" [] [.text "t".toList]]
/-- The paragraph comes first, and the opaque element has other content. -/
def filled2 : List Html := [ex "p" [] [.text "t".toList], ex "x-map" [("data-hotmeal-opaque", "")] [.text "b".toList]]

/-- **C77** is violated: when the server fills opaque elements, the report about a changed one leads to the place
where it was, and the text of the paragraph that is there now is lost. The wrapper that is parsed has the content of
the report. -/
theorem C77_violated_by_opaque_content :
    (match (Document.ofForest filled1).upkeep Shape.node (fun _ => .ofForest [ex "div" [] [.text "b".toList]])
        [.ofForest filled2] with
      | .ok D => decide (D.toBodyHtml = "<p>b</p><x-map data-hotmeal-opaque=\"\">a</x-map>".toList ∧
          (Document.ofForest filled2).toBodyHtml = "<p>t</p><x-map data-hotmeal-opaque=\"\">b</x-map>".toList)
      | .error _ => false) = true := by decide +kernel

/-- A document whose body contains one empty text and nothing else. -/
structure Leftover (D : Document) (b : Nat) : Prop where
  plain : D.Plain b
  data : D.arena.data b = ⟨.element "body".toList [], .html⟩
  kid : ∃ x, D.arena.children b = [x] ∧ D.arena.data x = Document.emptyText

theorem Leftover.diff {D : Document} {b : Nat} (h : Leftover D b) :
    diff Shape.node D (.ofForest []) = .ok [.remove [0, 0]] := by
  have hc := comparable_ofForest (cs := [.text []]) (ds := []) (by decide +kernel) (by decide +kernel)
  have hd : Hotmeal.diff Shape.node (.ofForest [.text []]) (.ofForest []) = .ok [.remove [0, 0]] := rfl
  rw [← hd]
  obtain ⟨x, hk, hx⟩ := h.kid
  refine C59_patches_depend_on_the_bodies_only ⟨h.plain, hc.new, by rw [h.data]; rfl⟩ hc
    (noCollision_shape _ _ _) (noCollision_shape _ _ _) ⟨by rw [hk]; rfl, ?_⟩
    (hc.new.sound.arena.wf.alike_refl (fun _ => rfl) 2)
  intro i y z hy hz
  rw [hk] at hy
  cases i with
  | succ i => simp at hy
  | zero =>
    cases hy
    have hz' : z = 3 := by
      have : ((Document.ofForest [.text []]).arena.children 2)[0]? = some 3 := rfl
      rw [this] at hz; exact (Option.some.inj hz).symm
    subst hz'
    have hl := h.plain.sound.arena.leaf x (.inl ⟨[], by rw [hx]; rfl⟩)
    refine .node (by rw [hx]; rfl) (by rw [hl]; rfl) ?_
    intro i c d hc
    rw [hl] at hc; simp at hc

/-- Taking the only node of the body away puts an empty text in its place. -/
theorem Leftover.step (parse : Str → Document) {D : Document} {b x : Nat} (hpl : D.Plain b)
    (hbd : D.arena.data b = ⟨.element "body".toList [], .html⟩) (hk : D.arena.children b = [x]) :
    ∃ D', applyPatches parse D [.remove [0, 0]] = .ok D' ∧ Leftover D' b := by
  have hw := hpl.sound.arena.wf
  have hp : D.arena.parent x = some b := (hw.mem_iff _ _).1 (by rw [hk]; simp)
  have hlt := hw.lt_of_parent _ _ hp
  have hbm := (Document.body_spec hpl.body).1
  have hbp := (hw.mem_iff _ _).1 hbm
  have hnav : navigate D.arena (Arena.upd (fun _ => none) 0 (some b)) [0, 0] = .ok x := by
    simp [navigate, navLoop, hk]
  obtain ⟨A, eA, hr⟩ := (lawful_native parse b).remove D.arena (Arena.upd (fun _ => none) 0 (some b)) [0, 0] x b
    (by simp) hw hnav (by decide) hp
  have hs := SoundRun.replaced hpl.sound.arena hr hp
  have hrb : D.root ≠ b := by
    intro e
    rw [e] at hbp
    exact hw.self_parent_ne hbp rfl
  have hdata : ∀ m, m ≠ D.arena.next → A.data m = D.arena.data m := fun m hm => by rw [hr.data, if_neg hm]
  have hkids : A.children b = [D.arena.next] := by
    rw [hr.children, if_pos rfl, hk]; simp [Arena.swapIn]
  have hbody : ({ D with arena := A } : Document).body = some b := by
    have e := hpl.body
    unfold Document.body at e ⊢
    show List.find? _ (A.children D.root) = _
    rw [hr.children, if_neg hrb, ← e]
    apply Mount.find?_congr'
    intro c hc
    have := (hw.lt_of_parent _ _ ((hw.mem_iff _ _).1 hc)).1
    have hd : ({ D with arena := A } : Document).arena.data c = D.arena.data c := hdata c (by omega)
    unfold Document.hasTag
    rw [hd]
  have hbl : b < D.arena.next := hlt.2
  have hanc : ∀ n, A.Anc b n → n = b ∨ n = D.arena.next := by
    intro n hn
    induction hn with
    | refl => exact .inl rfl
    | @step n p hnp _ ih =>
      have hm := (hs.wf.mem_iff _ _).2 hnp
      rcases ih with rfl | rfl
      · rw [hkids] at hm
        exact .inr (by simpa using hm)
      · rw [hr.children, if_neg (by omega), hw.children_ge (Nat.le_refl _)] at hm
        cases hm
  refine ⟨{ D with arena := A }, ?_, ⟨⟨hs, ?_⟩, hbody, ?_⟩, ?_, ?_⟩
  · unfold applyPatches initSlots Document.ensureBody
    rw [hpl.body]
    simp only [List.isEmpty_cons, Bool.false_eq_true, if_false, applyLoop, eA, bind, Except.bind]
  · show D.root < A.next
    rw [hr.next]
    have := hpl.sound.root_lt
    omega
  · intro n attrs hn hkn
    rcases hanc n hn with rfl | rfl
    · rfl
    · have hkn : (A.data D.arena.next).kind = _ := hkn
      rw [hr.data, if_pos rfl] at hkn; cases hkn
  · show A.data b = _
    rw [hdata b (by omega), hbd]
  · exact ⟨D.arena.next, hkids, by show A.data _ = _; rw [hr.data, if_pos rfl]⟩

/-- An up-to-date document need not be quiet: `diff` wants to take away an empty text that an earlier update has
left, `apply_patches` puts another one in its place, and so on for any number of updates, though the document has
the body HTML of the version all the time. -/
theorem C77_never_settles (parse : Str → Document) : ∃ v w : Document, v.Neat (fun _ => False) .html ∧
    w.Neat (fun _ => False) .html ∧ ∀ n, ∃ D, v.upkeep Shape.node parse (List.replicate (n + 1) w) = .ok D ∧
      D.toBodyHtml = w.toBodyHtml ∧ diff Shape.node D w = .ok [.remove [0, 0]] := by
  have hv : Html.plainL [ex "i" [] []] = true := by decide +kernel
  have hw : Html.plainL [] = true := by decide +kernel
  refine ⟨.ofForest [ex "i" [] []], .ofForest [], neat_plain hv (by decide +kernel), neat_plain hw (by decide +kernel), fun n => ?_⟩
  have hhtml : ∀ {D b}, Leftover D b → D.toBodyHtml = (Document.ofForest []).toBodyHtml := by
    intro D b h
    obtain ⟨x, hk, hx⟩ := h.kid
    have hl := h.plain.sound.arena.leaf x (.inl ⟨[], by rw [hx]; rfl⟩)
    have hf : D.bodyForest = [.text []] := by
      unfold Document.bodyForest
      rw [h.plain.body]
      simp only [Arena.forest, hk, List.map_cons, List.map_nil, h.plain.sound.arena.wf.tree_eq x, hl]
      rw [hx]; rfl
    rw [toBodyHtml_eq, toBodyHtml_eq, hf]; rfl
  have hrep : ∀ n {D b}, Leftover D b → ∃ D', D.upkeep Shape.node parse (List.replicate n (.ofForest [])) = .ok D' ∧
      Leftover D' b := by
    intro n
    induction n with
    | zero => intro D b h; exact ⟨D, rfl, h⟩
    | succ n ih =>
      intro D b h
      obtain ⟨x, hk, _⟩ := h.kid
      obtain ⟨D1, e1, h1⟩ := Leftover.step parse h.plain h.data hk
      obtain ⟨D2, e2, h2⟩ := ih h1
      refine ⟨D2, ?_, h2⟩
      rw [List.replicate_succ]
      simp only [Document.upkeep, h.diff, e1, bind, Except.bind, e2]
  have hc := comparable_ofForest hv hw
  obtain ⟨D1, e1, h1⟩ := Leftover.step parse (D := .ofForest [ex "i" [] []]) (b := 2) (x := 3) hc.old rfl rfl
  obtain ⟨D2, e2, h2⟩ := hrep n h1
  have hd : diff Shape.node (.ofForest [ex "i" [] []]) (.ofForest []) = .ok [.remove [0, 0]] := rfl
  refine ⟨D2, ?_, hhtml h2, h2.diff⟩
  rw [List.replicate_succ]
  simp only [Document.upkeep, hd, e1, bind, Except.bind, e2]

end Hotmeal
