import Verif.Lemmas.Copy
import Verif.Lemmas.DiffNames

set_option autoImplicit false
set_option linter.unusedSectionVars false

/-!
# C31: the browser applier and the native applier agree
-/

namespace Hotmeal

variable {H : Type} [DecidableEq H] {hashNode : HKind → Option Str → List H → H}
  {old new : Document} {ob nb : Nat} {N : QualName → Prop}

/-! ### Names in generated patches -/

/-- All attribute names that an operation puts into a patch satisfy `N`. -/
def EditOp.Names (N : QualName → Prop) (B : Arena TData) : EditOp → Prop
  | .updateProps _ _ changes => ∀ c ∈ changes, ∀ q, c.key = .attr q → N q
  | .insert b _ _ _ => ∀ n, B.Anc b n →
    (∀ kv ∈ (B.data n).props, N kv.1) ∧ (B.data n).props.keys.Nodup
  | _ => True

theorem diffLoop_names {N : QualName → Prop} (o : Attrs) (od : Bool) {new : Attrs}
    (h : ∀ kv ∈ new, N kv.1) (forced : Bool) :
    ∀ c ∈ o.diffLoop od forced new, ∀ q, c.key = .attr q → N q := by
  induction new generalizing forced with
  | nil => intro c hc; cases hc
  | cons kv rest ih =>
    obtain ⟨k, v⟩ := kv
    intro c hc q hq
    simp only [Attrs.diffLoop] at hc
    rcases List.mem_cons.1 hc with rfl | hc
    · simp only [PropKey.attr.injEq] at hq
      rw [← hq]; exact h (k, v) (by simp)
    · exact ih (fun kv hkv => h kv (by simp [hkv])) _ c hc q hq

theorem InsertContent.fineL_of {cs : List InsertContent} (h : ∀ c ∈ cs, c.Fine N) : FineL N cs := by
  induction cs with
  | nil => trivial
  | cons c cs ih => exact ⟨h c (by simp), ih fun c hc => h c (by simp [hc])⟩

/-- The content of an inserted element has the names of the nodes below it. -/
theorem extractChildren_fine {B : Arena TData} (hB : B.WF) (skip : Nat → Bool) {b : Nat}
    (h : ∀ n, B.Anc b n → (∀ kv ∈ (B.data n).props, N kv.1) ∧ (B.data n).props.keys.Nodup) :
    InsertContent.FineL N (extractChildren B skip b) := by
  have key : ∀ n, B.Anc b n → ∀ c, B.fold (extractAlg B skip) n = some c → c.Fine N := by
    intro n
    refine hB.induct_down (P := fun n => B.Anc b n →
      ∀ c, B.fold (extractAlg B skip) n = some c → c.Fine N) ?_ n
    intro n ih hn c hc
    rw [hB.fold_eq, extractAlg] at hc
    split at hc
    · cases hc
    · injection hc with hc
      subst hc
      split
      · refine ⟨(h n hn).1, (h n hn).2, InsertContent.fineL_of fun c hc => ?_⟩
        obtain ⟨r, hr, e⟩ := List.mem_filterMap.1 hc
        obtain ⟨m, hm, rfl⟩ := List.mem_map.1 hr
        exact ih m hm (.step ((hB.mem_iff _ _).1 hm) hn) c e
      · trivial
      · trivial
  refine InsertContent.fineL_of fun c hc => ?_
  obtain ⟨m, hm, e⟩ := List.mem_filterMap.1 hc
  exact key m (.step ((hB.mem_iff _ _).1 hm) .refl) c e

theorem convertOp_names {B : Arena TData} (hB : B.WF) {ins : List Nat} {C C' : Conv} {op : EditOp} {P : Patch}
    (ho : op.Names N B) (h : convertOp B ins C op = .ok (C', [P])) : P.Names N := by
  cases op with
  | updateProps a b changes =>
    simp only [convertOp, Except.ok.injEq, Prod.mk.injEq, List.cons.injEq, and_true] at h
    obtain ⟨_, rfl⟩ := h
    intro c hc q hq
    obtain ⟨c', hc', rfl⟩ := List.mem_map.1 hc
    exact ho c' hc' q hq
  | setText a b t =>
    simp only [convertOp, Except.ok.injEq, Prod.mk.injEq, List.cons.injEq, and_true] at h
    obtain ⟨_, rfl⟩ := h
    trivial
  | insert b pb pos kind =>
    simp only [convertOp, bind, Except.bind] at h
    split at h
    · cases h
    · split at h
      · cases h
      · cases kind with
        | element tag ns =>
          simp only [Except.ok.injEq, Prod.mk.injEq, List.cons.injEq, and_true] at h
          obtain ⟨_, rfl⟩ := h
          exact ⟨(ho b .refl).1, extractChildren_fine hB _ ho⟩
        | text =>
          simp only [Except.ok.injEq, Prod.mk.injEq, List.cons.injEq, and_true] at h
          obtain ⟨_, rfl⟩ := h
          trivial
        | comment =>
          simp only [Except.ok.injEq, Prod.mk.injEq, List.cons.injEq, and_true] at h
          obtain ⟨_, rfl⟩ := h
          trivial
  | delete a =>
    simp only [convertOp, bind, Except.bind] at h
    split at h
    · cases h
    · simp only [Except.ok.injEq, Prod.mk.injEq, List.cons.injEq, and_true] at h
      obtain ⟨_, rfl⟩ := h
      trivial
  | move a b pb pos =>
    have last : ∀ {pre : List Patch} {f t : Path} {sl : Option Nat},
        pre ++ [Patch.move f t sl] = [P] → P.Names N := by
      intro pre f t sl e
      cases pre with
      | nil =>
        simp only [List.nil_append, List.cons.injEq, and_true] at e
        rw [← e]; trivial
      | cons x xs => simp at e
    simp only [convertOp, bind, Except.bind] at h
    cases e1 : C.parentOf pb with
    | error => rw [e1] at h; cases h
    | ok sp =>
      rw [e1] at h
      simp only at h
      by_cases ha : C.shadow.isAncestor a sp = true
      · simp only [ha, if_true] at h
        split at h
        · cases h
        · split at h
          · cases h
          · simp only [Except.ok.injEq, Prod.mk.injEq] at h
            exact last h.2
      · simp only [ha, Bool.false_eq_true, if_false] at h
        split at h
        · cases h
        · simp only [Except.ok.injEq, Prod.mk.injEq] at h
          exact last h.2

theorem script_names {A B : Arena TData} {nb : Nat} {M : Matching} (hp : Plan A B nb M)
    (hB : ∀ b, B.Anc nb b →
      (∀ kv ∈ (B.data b).props, N kv.1) ∧ (B.data b).props.keys.Nodup) :
    ∀ op ∈ generateEditScript (DiffTree.ofArena hashNode A 0) (DiffTree.ofArena hashNode B nb) M,
      op.Names N B := by
  intro op hop
  simp only [generateEditScript, List.mem_append] at hop
  rcases hop with ((hop | hop) | hop) | hop
  · obtain ⟨⟨a, b⟩, hab, hop⟩ := List.mem_flatMap.1 hop
    split at hop
    · cases hop
    · rcases List.mem_append.1 hop with hop | hop
      · unfold textOps at hop
        split at hop
        · cases hop
        · split at hop
          · rw [List.mem_singleton] at hop; subst hop; trivial
          · cases hop
      · unfold propOps at hop
        split at hop
        · cases hop
        · simp only at hop
          split at hop
          · rw [List.mem_singleton] at hop; subst hop
            exact diffLoop_names _ _ (hB b (hp.lt a b hab).2).1 _
          · cases hop
  · obtain ⟨b, hb, hop⟩ := List.mem_flatMap.1 hop
    split at hop
    · cases hop
    · split at hop
      · cases hop
      · split at hop
        · cases hop
        · rw [List.mem_singleton] at hop; subst hop
          exact fun n hn => hB n (Arena.Anc.trans ((hp.bw.mem_descendants nb b).1 hb) hn)
  · obtain ⟨⟨a, b⟩, hab, hop⟩ := List.mem_flatMap.1 hop
    unfold moveOp at hop
    split at hop
    · cases hop
    · split at hop
      · split at hop
        · rw [List.mem_singleton] at hop; subst hop; trivial
        · split at hop
          · rw [List.mem_singleton] at hop; subst hop; trivial
          · cases hop
      · cases hop
  · obtain ⟨b, hb, hop⟩ := List.mem_flatMap.1 hop
    split at hop
    · cases hop
    · split at hop
      · cases hop
      · rw [List.mem_singleton] at hop; subst hop; trivial

/-! ### A whole run -/

/-- The browser client follows a native run. -/
theorem Trace.browser {B : Arena TData} {ins : List Nat} {parse : Str → Document} {g : Nat → Nat}
    {J : Nat → Prop} {root eb : Nat} (hB : B.WF) (hN : PlainNames N) (hJ : ∀ n, ¬ J n) {w w2 : World}
    {ops : List EditOp} {ps : List Patch}
    (h : Trace B ins (forgetStep parse) g J w ops ps w2) (hops : ∀ op ∈ ops, op.Names N B)
    {φ : Nat → Nat} {L : Nat → Prop} {E : Arena NodeData} {t : Slots}
    (hA : Agree N root eb φ L w.D w.slots E t) :
    ∃ φ' L' E' t', Wasm.applyLoop eb E t ps = .ok (E', t') ∧
      Agree N root eb φ' L' w2.D w2.slots E' t' ∧ ∀ n, L n → L' n ∧ φ' n = φ n := by
  induction h generalizing φ L E t with
  | nil => exact ⟨φ, L, E, t, rfl, hA, fun n hn => ⟨hn, rfl⟩⟩
  | cons hc hs hg hr _ ih =>
    obtain ⟨φ1, L1, E1, t1, e1, hA1, hx1⟩ := hA.step hN parse hJ hr
      (convertOp_names hB (hops _ (by simp)) hc) hs
    obtain ⟨φ2, L2, E2, t2, e2, hA2, hx2⟩ := ih (fun op hop => hops op (by simp [hop])) hA1
    refine ⟨φ2, L2, E2, t2, by simp only [Wasm.applyLoop, e1, bind, Except.bind, e2], hA2, fun n hn => ?_⟩
    obtain ⟨g1, g2⟩ := hx1 n hn
    exact ⟨(hx2 n g1).1, by rw [(hx2 n g1).2, g2]⟩

/-- All attribute names below `b` satisfy `N`. -/
def Document.NamesIn (N : QualName → Prop) (D : Document) (b : Nat) : Prop :=
  ∀ n tag attrs, D.arena.Anc b n → (D.arena.data n).kind = .element tag attrs →
    ∀ kv ∈ attrs, N kv.1

/-- The operations of an edit script have the names of the new document. -/
theorem Comparable.script_names (h : Comparable old new ob nb)
    (hc : NoCollision hashNode (buildTree old ob) (diffable new) nb)
    (ho : OpaqueAgree hashNode old new ob nb) (hn : new.NamesIn N nb) :
    ∀ op ∈ script hashNode old new ob nb, op.Names N (diffable new) := by
  obtain ⟨g0, hb0⟩ := buildTree_spec old h.old.sound.arena.leafy ob
  refine Hotmeal.script_names (h.plan hashNode hc ho hb0) ?_
  intro b hb
  have ha := anc_of_diffable hb
  show (∀ kv ∈ (tdataOf (new.arena.data b)).props, N kv.1) ∧
    (tdataOf (new.arena.data b)).props.keys.Nodup
  cases ek : (new.arena.data b).kind with
  | element tag attrs =>
    simp only [tdataOf, ek]
    exact ⟨hn b tag attrs ha ek, h.new.sound.arena.uniq _ _ _ ek⟩
  | _ => simp [tdataOf, ek, Attrs.keys]

theorem Comparable.browser_run (h : Comparable old new ob nb) (parse : Str → Document)
    (hc : NoCollision hashNode (buildTree old ob) (diffable new) nb)
    (hq : OpaqueAgree hashNode old new ob nb)
    (hf : NoMoveBelowSelf hashNode old new ob nb ∨ NoInversion hashNode old new ob nb)
    (hN : PlainNames N) (ho : old.NamesIn N ob) (hn : new.NamesIn N nb)
    {E : Arena NodeData} {eb : Nat} (hE : E.WF) (heb : eb < E.next) (hEe : E.ElemBelow eb)
    (hsame : (E.tree eb).unq = (old.arena.tree ob).unq) :
    ∃ S0 ps, diff hashNode old new = .ok (ps ++ reports hashNode old new ob nb S0) ∧
      ∀ ps1 ps2, ps = ps1 ++ ps2 → ∃ old1 E1,
      applyPatches parse old ps1 = .ok old1 ∧ Wasm.applyPatches eb E ps1 = .ok E1 ∧
      (E1.tree eb).unq = (old1.arena.tree ob).unq := by
  obtain ⟨f, hd, hb⟩ := h.docRel_old
  have hso := h.old.sound.arena
  obtain ⟨hbm, battrs, hbk⟩ := Document.body_spec h.old.body
  have hbp := (hso.wf.mem_iff _ _).1 hbm
  -- nothing but the old tree is below the body
  have hJ : ∀ n, ¬ Surplus (Plan.ctx (buildTree old ob) (diffable new)
      (diffMatching (oldTree hashNode old ob) (newTree hashNode new nb)) old.arena f) old.arena f n :=
    hb.not_surplus _
  have hDe : old.arena.ElemBelow ob := by
    intro n ha hne
    cases e : (old.arena.data n).kind with
    | element tag attrs => exact ⟨tag, attrs, rfl⟩
    | document => exact absurd e (Comparable.not_document old h.old ha)
    | text s => exact absurd (hso.leaf n (.inl ⟨s, e⟩)) hne
    | comment s => exact absurd (hso.leaf n (.inr ⟨s, e⟩)) hne
  obtain ⟨φ, hA⟩ := agree_of_tree (N := N) hso.wf hE (hso.wf.lt_of_parent _ _ hbp).1 heb ⟨_, hbp⟩
    hDe hEe (fun n tag attrs ha ek => ⟨ho n tag attrs ha ek, hso.uniq n tag attrs ek⟩) hsame
  obtain ⟨S0, ps, w, g, _, e, ht, _, _, _⟩ := h.run hc hq hf (lawful_forget parse _) hd
    (slots := Arena.upd (fun _ => none) 0 (some ob)) (by simp)
  have hnames := h.script_names hc hq hn
  refine ⟨S0, ps, e, fun ps1 ps2 e2 => ?_⟩
  obtain ⟨o1, o2, w1, e3, h1, _⟩ := ht.split ps1 ps2 e2
  obtain ⟨φ1, L1, E1, t1, e4, hA1, _⟩ := h1.browser (Built.diffable_wf h.new.sound.arena.wf) hN hJ
    (fun op hop => hnames op (by rw [e3]; simp [hop])) hA
  obtain ⟨t', e5, _⟩ := runPatches_forget parse (SlotsLe.refl _) h1.apply
  refine ⟨_, E1, h.applyPatches_eq parse ps1 e5, ?_, ?_⟩
  · simp only [Wasm.applyPatches, e4, bind, Except.bind]
  · have := hA1.tree ob hA1.rootL
    rw [hA1.rootE] at this
    exact this

/-- **C31**, partial: when the page shows the body of the old document, every prefix of the computed
patch list before the final reports about opaque elements applies both natively and in the browser, and
the page then shows the same body as the native document.

Hypotheses: attribute names are told apart by the way they are written (`PlainNames`), as the
browser knows attributes by their written name only; HTML elements of the page have lower-case
attribute names (as the HTML parser makes them); the DOM accepts the names in the patches and keeps
them as they are (`WebDom.Keeps`; by `C31_names_from_new` it is enough that this holds for the names
in the new document). Missing: other names (`C31_violated_names`, `C31_violated_case`), the reports
(the browser does not replace the content of opaque elements but dispatches an event), elements that
become opaque or cease to be opaque (`OpaqueAgree`) and Moves of a node below itself
(`C31_violated`). -/
theorem C31_browser_agrees_partial (dom : WebDom) (parse : Str → Document) (h : Comparable old new ob nb)
    (hc : NoCollision hashNode (buildTree old ob) (diffable new) nb)
    (hq : OpaqueAgree hashNode old new ob nb)
    (hf : NoMoveBelowSelf hashNode old new ob nb ∨ NoInversion hashNode old new ob nb)
    (hN : PlainNames N) (ho : old.NamesIn N ob) (hn : new.NamesIn N nb)
    {E : Arena NodeData} {eb : Nat} (hE : E.WF) (heb : eb < E.next) (hEe : E.ElemBelow eb)
    (hEl : E.Lower) (hk : ∀ ps, diff hashNode old new = .ok ps → ∀ P ∈ ps, dom.Keeps P)
    (hsame : (E.tree eb).unq = (old.arena.tree ob).unq) :
    ∃ ps rs, diff hashNode old new = .ok (ps ++ rs) ∧ (∀ P ∈ rs, P.isReport = true) ∧
      ∀ ps1 ps2, ps = ps1 ++ ps2 → ∃ old1 E1,
      applyPatches parse old ps1 = .ok old1 ∧ dom.applyPatches eb E ps1 = .ok E1 ∧
      (E1.tree eb).unq = (old1.arena.tree ob).unq := by
  obtain ⟨S0, ps, e, h1⟩ := h.browser_run parse hc hq hf hN ho hn hE heb hEe hsame
  refine ⟨ps, _, e, reports_isReport S0, fun ps1 ps2 e2 => ?_⟩
  obtain ⟨old1, E1, e3, e4, e5⟩ := h1 ps1 ps2 e2
  refine ⟨old1, E1, e3, ?_, e5⟩
  rw [WebDom.applyPatches_eq hEl fun P hP => hk _ e P (by rw [e2]; simp [hP]), e4]

/-- The names in the patches of a diff are names of the new document: if the DOM accepts these and
keeps them as they are, it does so with the names in the patches. -/
theorem C31_names_from_new (dom : WebDom) (h : Comparable old new ob nb)
    (hc : NoCollision hashNode (buildTree old ob) (diffable new) nb)
    (hq : OpaqueAgree hashNode old new ob nb) (hn : new.AllIn dom.KeepsTag dom.KeepsName nb)
    {ps : List Patch} (hd : diff hashNode old new = .ok ps) : ∀ P ∈ ps, dom.Keeps P :=
  h.diff_all hc hq hn hd

/-- The HTML inside an element (`innerHTML`). -/
def Html.inner : Html → Str
  | .element _ _ cs => Html.serL false cs
  | _ => []

theorem Html.serL_unqL (raw : Bool) (cs : List Html) :
    Html.serL raw (Html.unqL cs) = Html.serL raw cs := by
  induction cs with
  | nil => rfl
  | cons c cs ih => simp only [Html.unqL, Html.serL, ih, Html.ser_unq]

theorem Html.inner_unq (t : Html) : t.unq.inner = t.inner := by
  cases t <;> simp [Html.unq, Html.inner, Html.serL_unqL]

/-- **C31**, partial, end to end: when the page shows the body of the old document, applying the
computed patch list in the browser succeeds, and then the page has the inner HTML of the body of the
new document. Missing: as for `C31_browser_agrees_partial`. -/
theorem C31_browser_shows_new_partial (dom : WebDom) (h : Comparable old new ob nb)
    (hc : NoCollision hashNode (buildTree old ob) (diffable new) nb)
    (hq : OpaqueFixed hashNode old new ob nb)
    (hf : NoMoveBelowSelf hashNode old new ob nb ∨ NoInversion hashNode old new ob nb)
    (hN : PlainNames N) (ho : old.NamesIn N ob) (hn : new.NamesIn N nb)
    {E : Arena NodeData} {eb : Nat} (hE : E.WF) (heb : eb < E.next) (hEe : E.ElemBelow eb)
    (hEl : E.Lower) (hk : ∀ ps, diff hashNode old new = .ok ps → ∀ P ∈ ps, dom.Keeps P)
    (hsame : (E.tree eb).unq = (old.arena.tree ob).unq) :
    ∃ ps E', diff hashNode old new = .ok ps ∧ dom.applyPatches eb E ps = .ok E' ∧
      (E'.tree eb).inner = new.toBodyHtml := by
  obtain ⟨S0, ps, e, hall⟩ := h.browser_run (fun _ => Document.new) hc hq.agree hf hN ho hn hE heb hEe
    hsame
  rw [h.reports_nil hc hq.agree hq.same, List.append_nil] at e
  obtain ⟨old1, E1, e1, e2, e3⟩ := hall ps [] (by simp)
  refine ⟨ps, E1, e, by rw [WebDom.applyPatches_eq hEl (hk _ e), e2], ?_⟩
  obtain ⟨ps', old', e', e4, e5, _⟩ := C01_round_trip_partial (fun _ => Document.new) h hc hq hf
  obtain ⟨_, ps'', A, g, e6, e7, _, hm, _, hb, _⟩ := h.native hc hq hf (fun _ => Document.new)
  rw [e] at e' e6
  cases e'; cases e6
  rw [e4] at e1 e7
  cases e1
  cases e7
  rw [← Html.inner_unq, e3, Html.inner_unq, ← e5, toBodyHtml_eq]
  simp only [Document.bodyForest, hb]
  rw [hm.wf.tree_eq]
  obtain ⟨_, attrs, hk⟩ := Document.body_spec hb
  rw [hk]
  rfl

/-- Names without prefix and namespace. -/
def bareName (q : QualName) : Prop := q.prefix_ = none ∧ q.ns = []

instance (q : QualName) : Decidable (bareName q) := by unfold bareName; infer_instance

theorem plainNames_bare : PlainNames bareName := by
  constructor
  · rintro ⟨p, n, l⟩ ⟨p', n', l'⟩ ⟨h1, h2⟩ ⟨h3, h4⟩ e
    simp only at h1 h2 h3 h4
    subst h1; subst h2; subst h3; subst h4
    simpa [serName] using e
  · rintro q ⟨h, _⟩; rw [h]; simp

/-- Every attribute name of a concrete document is bare. -/
def bareB (D : Document) : Bool :=
  (List.range D.arena.next).all fun n => match (D.arena.data n).kind with
    | .element _ attrs => attrs.all fun kv => decide (bareName kv.1)
    | _ => true

theorem namesIn_of_bareB {D : Document} {b : Nat} (hw : D.arena.WF) (hb : b < D.arena.next)
    (h : bareB D = true) : D.NamesIn bareName b := by
  intro n tag attrs ha ek kv hkv
  have hn : n < D.arena.next := by
    rcases ha.cases' with rfl | ⟨p, hp, _⟩
    · exact hb
    · exact (hw.lt_of_parent _ _ hp).1
  unfold bareB at h
  rw [List.all_eq_true] at h
  have h1 := h n (List.mem_range.2 hn)
  rw [ek] at h1
  simp only [List.all_eq_true] at h1
  exact of_decide_eq_true (h1 kv hkv)

/-- A DOM that accepts every name. -/
def WebDom.lenient : WebDom := ⟨fun _ => true, fun _ => true, fun _ => Document.new⟩

/-- Every name of a concrete document is accepted and kept by the DOM. -/
def keptB (dom : WebDom) (D : Document) : Bool :=
  (List.range D.arena.next).all fun n => match (D.arena.data n).kind with
    | .element tag attrs => dom.tagOk tag && decide (LowerCase tag) && attrs.all fun kv =>
      dom.attrOk (serName kv.1) && decide (LowerCase (serName kv.1)) &&
      (dom.attrOk (Wasm.domName kv.1) && decide (LowerCase (Wasm.domName kv.1)))
    | _ => true

theorem allIn_of_keptB {dom : WebDom} {D : Document} {b : Nat} (hw : D.arena.WF) (hb : b < D.arena.next)
    (h : keptB dom D = true) : D.AllIn dom.KeepsTag dom.KeepsName b := by
  intro n tag attrs ha ek
  have hn : n < D.arena.next := by
    rcases ha.cases' with rfl | ⟨p, hp, _⟩
    · exact hb
    · exact (hw.lt_of_parent _ _ hp).1
  unfold keptB at h
  rw [List.all_eq_true] at h
  have h1 := h n (List.mem_range.2 hn)
  rw [ek] at h1
  simp only [Bool.and_eq_true, List.all_eq_true, decide_eq_true_eq] at h1
  exact ⟨h1.1, h1.2⟩

mutual
/-- All attribute names in a tree are lower-case. -/
def Html.lower : Html → Bool
  | .element _ attrs cs => (attrs.all fun kv => decide (LowerCase (serName kv.1))) && lowerL cs
  | _ => true
/-- All attribute names in a list of trees are lower-case. -/
def Html.lowerL : List Html → Bool
  | [] => true
  | c :: cs => c.lower && lowerL cs
end

mutual
theorem lower_addTree : ∀ (t : Html) (A : Arena NodeData) (p : Nat), t.lower = true → A.Lower →
    (addTree A p t).Lower
  | .document, _, _, _, hA => hA
  | .text _, _, p, _, hA => hA.addChild (NodeData.lower_text _ _) p
  | .comment _, _, p, _, hA => hA.addChild (NodeData.lower_comment _ _) p
  | .element tag attrs cs, A, p, h, hA => by
    simp only [Html.lower, Bool.and_eq_true, List.all_eq_true, decide_eq_true_eq] at h
    refine lower_addTrees cs _ _ h.2 (hA.addChild ?_ p)
    intro _ tag' attrs' e
    cases e
    exact h.1
theorem lower_addTrees : ∀ (cs : List Html) (A : Arena NodeData) (p : Nat), Html.lowerL cs = true →
    A.Lower → (addTrees A p cs).Lower
  | [], _, _, _, hA => hA
  | c :: cs, A, p, h, hA => by
    simp only [Html.lowerL, Bool.and_eq_true] at h
    exact lower_addTrees cs _ p h.2 (lower_addTree c A p h.1 hA)
end

theorem lower_new : Document.new.arena.Lower := by
  intro n _ tag attrs e
  match n with
  | 0 => cases e; simp
  | 1 => cases e; simp
  | 2 => cases e; simp
  | n + 3 => cases e

theorem lower_ofForest {cs : List Html} (h : Html.lowerL cs = true) :
    (Document.ofForest cs).arena.Lower := lower_addTrees cs _ 2 h lower_new

/-- The hypotheses of the C31 theorems hold for `ex1`, `ex2` with a page that holds `ex1`, and the
patch list has eleven patches. -/
example : Comparable (.ofForest ex1) (.ofForest ex2) 2 2 ∧
    OpaqueFixed Shape.node (.ofForest ex1) (.ofForest ex2) 2 2 ∧
    NoMoveBelowSelf Shape.node (.ofForest ex1) (.ofForest ex2) 2 2 ∧
    (Document.ofForest ex1).NamesIn bareName 2 ∧ (Document.ofForest ex2).NamesIn bareName 2 ∧
    (Document.ofForest ex1).arena.WF ∧ 2 < (Document.ofForest ex1).arena.next ∧
    (Document.ofForest ex1).arena.ElemBelow 2 ∧ (Document.ofForest ex1).arena.Lower ∧
    (Document.ofForest ex2).AllIn WebDom.lenient.KeepsTag WebDom.lenient.KeepsName 2 ∧
    (match diff Shape.node (.ofForest ex1) (.ofForest ex2) with
      | .ok ps => decide (ps.length = 11)
      | .error _ => false) = true := by
  have h1 := (ofForest_spec ex1 (by decide +kernel)).1.arena
  have h2 := (ofForest_spec ex2 (by decide +kernel)).1.arena
  have hc : Comparable (.ofForest ex1) (.ofForest ex2) 2 2 :=
    comparable_ofForest (by decide +kernel) (by decide +kernel)
  refine ⟨hc, opaqueFixed_ofForest (by decide +kernel) (by decide +kernel), noMoveBelowSelf_of_movesSafe (by decide +kernel),
    namesIn_of_bareB h1.wf (by decide +kernel) (by decide +kernel),
    namesIn_of_bareB h2.wf (by decide +kernel) (by decide +kernel), h1.wf, by decide +kernel, ?_,
    lower_ofForest (by decide +kernel), allIn_of_keptB h2.wf (by decide +kernel) (by decide +kernel),
    by decide +kernel⟩
  intro n ha hne
  cases e : ((Document.ofForest ex1).arena.data n).kind with
  | element tag attrs => exact ⟨tag, attrs, rfl⟩
  | document => exact absurd e (Comparable.not_document _ hc.old ha)
  | text s => exact absurd (h1.leaf n (.inl ⟨s, e⟩)) hne
  | comment s => exact absurd (h1.leaf n (.inr ⟨s, e⟩)) hne

/-! ### Disagreement when a node is moved below itself -/

/-- Old content of the counterexample. -/
def split1 : List Html :=
  [ex "d" [("c", "1")] [ex "p" [] [ex "d" [("i", "1")] [ex "b" []
    [ex "u" [] [], ex "b" [] [], ex "b" [] [], ex "b" [] []]]], ex "u" [] []]]
/-- New content: the two `d` elements have changed places. -/
def split2 : List Html :=
  [ex "d" [("i", "1")] [ex "p" [] [ex "d" [("c", "1")] [ex "b" []
    [ex "u" [] [], ex "b" [] [], ex "b" [] [], ex "b" [] [], ex "b" [] []]]]]]

/-- **C31** is violated in general: there are two plain documents and a collision-free hash such
that the computed patches apply without error both natively and in a browser that shows the old
body, but the browser then shows other HTML than the native document. -/
theorem C31_violated : ∃ cs ds : List Html, Html.plainL cs = true ∧ Html.plainL ds = true ∧
    (∀ A B nb, NoCollision Shape.node A B nb) ∧
    (match diff Shape.node (.ofForest cs) (.ofForest ds) with
      | .ok ps => match applyPatches (fun _ => Document.new) (.ofForest cs) ps,
          WebDom.lenient.applyPatches 2 (Document.ofForest cs).arena ps with
        | .ok D, .ok E => decide (D.toBodyHtml ≠ (E.tree 2).inner)
        | _, _ => false
      | .error _ => false) = true :=
  ⟨split1, split2, by decide +kernel, by decide +kernel, noCollision_shape, by decide +kernel⟩

/-- **C31** is violated by names with upper-case letters, even if the DOM accepts every name: an
inserted `svg` with a `viewBox` has a `viewbox` in the browser. -/
theorem C31_violated_case : ∃ cs ds : List Html, Html.plainL cs = true ∧ Html.plainL ds = true ∧
    NoMoveBelowSelf Shape.node (.ofForest cs) (.ofForest ds) 2 2 ∧
    (match diff Shape.node (.ofForest cs) (.ofForest ds) with
      | .ok ps => match applyPatches (fun _ => Document.new) (.ofForest cs) ps,
          WebDom.lenient.applyPatches 2 (Document.ofForest cs).arena ps with
        | .ok D, .ok E => decide (D.toBodyHtml = (Document.ofForest ds).toBodyHtml ∧
            D.toBodyHtml = "<p></p><svg viewBox=\"0\"></svg>".toList ∧
            (E.tree 2).inner = "<p></p><svg viewbox=\"0\"></svg>".toList)
        | _, _ => false
      | .error _ => false) = true :=
  ⟨[ex "p" [] []], [ex "p" [] [], ex "svg" [("viewBox", "0")] []], by decide +kernel, by decide +kernel,
    noMoveBelowSelf_of_movesSafe (by decide +kernel), by decide +kernel⟩

/-- A DOM that rejects names with an `@`, and accepts other names. -/
def WebDom.noAt : WebDom := ⟨fun s => !s.contains '@', fun s => !s.contains '@', fun _ => Document.new⟩

/-- **C31** is violated by names that the HTML parser accepts but the DOM rejects: on an existing
element there is no fallback, and handling the patches fails. -/
theorem C31_violated_names : ∃ cs ds : List Html, Html.plainL cs = true ∧ Html.plainL ds = true ∧
    NoMoveBelowSelf Shape.node (.ofForest cs) (.ofForest ds) 2 2 ∧
    (match diff Shape.node (.ofForest cs) (.ofForest ds) with
      | .ok ps => match applyPatches (fun _ => Document.new) (.ofForest cs) ps,
          WebDom.noAt.applyPatches 2 (Document.ofForest cs).arena ps with
        | .ok D, .error e => decide (D.toBodyHtml = (Document.ofForest ds).toBodyHtml ∧
            e = .invalidName)
        | _, _ => false
      | .error _ => false) = true :=
  ⟨[ex "p" [("@click", "a")] [ex "u" [] [], ex "v" [] [], ex "w" [] []]],
    [ex "p" [("@click", "b")] [ex "u" [] [], ex "v" [] [], ex "w" [] []]], by decide +kernel,
    by decide +kernel, noMoveBelowSelf_of_movesSafe (by decide +kernel), by decide +kernel⟩

/-- **C01** is also violated without any error: the native document ends up with an element that the
new document does not have. -/
theorem C01_violated_silently : ∃ cs ds : List Html, Html.plainL cs = true ∧ Html.plainL ds = true ∧
    (∀ A B nb, NoCollision Shape.node A B nb) ∧
    (match diff Shape.node (.ofForest cs) (.ofForest ds) with
      | .ok ps => match applyPatches (fun _ => Document.new) (.ofForest cs) ps with
        | .ok D => decide (D.toBodyHtml = (Document.ofForest ds).toBodyHtml ++ "<u></u>".toList)
        | _ => false
      | .error _ => false) = true :=
  ⟨split1, split2, by decide +kernel, by decide +kernel, noCollision_shape, by decide +kernel⟩

end Hotmeal
