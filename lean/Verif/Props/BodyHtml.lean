import Verif.Lemmas.BodyHtml
import Verif.Props.EndToEnd
import Verif.Props.Mount

set_option autoImplicit false
set_option linter.unusedSectionVars false

/-!
# C85: the content of a body is set as a text, patched, and asked for as a text

This is what the project's own browser tests do (hotmeal-wasm/tests/wasm.spec.ts), for all contents instead of some.
-/

namespace Hotmeal
namespace Reader

theorem readFragment_simple {text : Str} {D : Document} (h : readFragment text = some D) : AllSimple D.arena := by
  unfold readFragment at h
  split at h
  · next evs S e e0 =>
    have hB : fragmentStartB = true := by decide +kernel
    unfold fragmentStartB at hB
    split at hB
    · cases hB
    · next S' hc =>
      simp only [Bool.and_eq_true, decide_eq_true_eq] at hB
      obtain ⟨⟨⟨⟨⟨b1, b2⟩, b3⟩, b4⟩, b5⟩, b6⟩ := hB
      obtain ⟨hsafe, hrun⟩ := Sink.checkAll_spec Sink.good_new hc
      have e0' := e0
      rw [hrun] at e0
      cases e0
      have hr : Ready (S, [2]) := ⟨Sink.good_runAll Sink.good_new hsafe hrun, by
        intro n hn
        simp only [List.mem_cons, List.not_mem_nil, or_false] at hn
        subst hn
        exact ⟨by show 2 < S.arena.next; omega, .inr ⟨_, _, b5⟩⟩⟩
      obtain ⟨σ, e1, h1⟩ := hr.build (fragment_unique e)
      have hS : AllSimple S.arena := by
        unfold Sink.runAll Sink.fragmentStart at e0'
        rw [List.foldlM_cons] at e0'
        obtain ⟨S1, h1, e0'⟩ := res_bind e0'
        rw [List.foldlM_cons] at e0'
        obtain ⟨S2, h2, e0'⟩ := res_bind e0'
        rw [List.foldlM_cons] at e0'
        obtain ⟨S3, h3, e0'⟩ := res_bind e0'
        cases e0'
        cases h1
        cases h2
        simp only [Sink.run, Sink.append] at h3
        obtain ⟨A, h4, h5⟩ := res_bind h3
        cases h5
        obtain ⟨d, _⟩ := Arena.append_data h4
        intro n tag as hk kv hkv
        change (A.data n).kind = _ at hk
        rw [d] at hk
        simp only [Sink.createElement, Sink.new, Arena.newNode, Arena.upd_apply] at hk
        split at hk
        · cases hk; cases hkv
        · split at hk
          · cases hk; cases hkv
          · split at hk <;> cases hk
      have := AllSimple.build hr hS (fragment_unique e) (fragment_plainly e) e1
      rw [e1] at h
      cases h
      exact this
  · cases h

end Reader

namespace BodyHtml

open Mount Reader

/-- A parser of fragments that does what the standard prescribes wherever `Reader` describes it; moreover, attribute
names are in lower case and have no prefix. -/
structure ParsesFragments (frag : Str → Document) : Prop where
  reads : ReadsFragments frag
  simple : ∀ text D, readFragment text = some D → AllSimple (frag text).arena

/-- There is such a parser. -/
theorem parsesFragments_reader : ParsesFragments fun text => (readFragment text).getD Document.new := by
  refine ⟨readsFragments_reader, fun text D h => ?_⟩
  simp only [h, Option.getD_some]; exact readFragment_simple h

/-- A page of a browser with document node `doc` and body `b`. -/
structure Stage (E : Arena NodeData) (doc b : Nat) : Prop where
  sound : E.Sound
  lower : E.Lower
  body : documentBody E doc = some b
  own : ∀ tag as, (E.data b).kind = .element tag as → as.Simple

theorem documentBody_kind {E : Arena NodeData} {doc b : Nat} (h : documentBody E doc = some b) :
    ∃ tag as, (E.data b).kind = .element tag as := by
  unfold documentBody at h
  simp only [bind, Option.bind] at h
  split at h
  · cases h
  · simp only at h
    split at h
    · have := List.find?_some h
      unfold tagOf at this
      cases hk : (E.data b).kind with
      | element tag as => exact ⟨tag, as, rfl⟩
      | _ => simp [hk] at this
    · cases h

theorem documentBody_lt {E : Arena NodeData} (hE : E.WF) {doc b : Nat} (h : documentBody E doc = some b) :
    b < E.next := by
  obtain ⟨p, hp⟩ := documentBody_parent hE h
  exact (hE.lt_of_parent _ _ hp).1

theorem lower_of_simple {A : Arena NodeData} (h : AllSimple A) : A.Lower := by
  intro n _ tag as hk kv hkv
  obtain ⟨h1, h2⟩ := h n tag as hk kv hkv
  rw [(Parsed.serName_bare h1).1]
  exact h2

theorem resolve_body {E : Arena NodeData} {doc b : Nat} (h : documentBody E doc = some b) :
    resolveMountPoint E doc .body = .ok b := by
  simp only [resolveMountPoint, h]

theorem get_eq {E : Arena NodeData} {doc b : Nat} (h : documentBody E doc = some b) :
    getBodyInnerHtml E doc = .ok (Html.serL false (E.forest b)) := by
  unfold getBodyInnerHtml
  rw [resolve_body h, ← serializeInner_eq]
  rfl

/-- **C85**, for any text: setting the content of the body succeeds in every page that has a body; the body keeps its
place and its attributes and has exactly the nodes that the browser's parser makes of the text; the nodes that were in
the body are no longer in it, and no other node changes. -/
theorem C85_set_body (frag : Str → Document) {E : Arena NodeData} (hE : E.Sound) {doc b : Nat}
    (hb : documentBody E doc = some b) (text : Str) (hw : (frag text).Sound) :
    ∃ E', setBodyInnerHtml frag E doc text = .ok E' ∧ E'.Sound ∧ documentBody E' doc = some b ∧
      E'.forest b = (frag text).arena.forest (frag text).root ∧
      getBodyInnerHtml E' doc = .ok (Html.serL false ((frag text).arena.forest (frag text).root)) ∧
      E'.data b = E.data b ∧ E'.parent b = E.parent b ∧
      (∀ n ∈ E.children b, E'.parent n = none) ∧
      ∀ n, n < E.next → ¬ E.Anc b n →
        E'.parent n = E.parent n ∧ E'.children n = E.children n ∧ E'.data n = E.data n := by
  obtain ⟨tag, as, hk⟩ := documentBody_kind hb
  have hlt := documentBody_lt hE.wf hb
  obtain ⟨E', e, hf⟩ := setInnerHtml_fills (P := fun _ => True) (frag := frag) ⟨hE, fun _ => trivial⟩ hlt hk (html := text)
    ⟨hw.arena, fun _ => trivial⟩
  have hp := hf.samePlace hE.wf hlt
  have hb' := documentBody_same hp hE.wf hb
  refine ⟨E', ?_, hf.tidy.sound, hb', hf.forest, ?_, hf.data b hlt, hp.place, hf.removed, hp.out⟩
  · unfold setBodyInnerHtml
    rw [resolve_body hb]
    exact e
  · rw [get_eq hb', hf.forest]

/-! ### Contents that can be read -/

/-- A content of a body that can be read as a page and as a fragment, with names that the DOM takes and with opaque
elements that are empty and are recognised by their tags. -/
def ok (dom : WebDom) (isle : Str → Bool) (cs : List Html) : Bool :=
  (PageTree.ofBody cs).ok isle && (PageTree.ofBody cs).bare isle && (PageTree.ofBody cs).accepted dom &&
    Html.readableL ["html".toList] cs

theorem wrap_read {html5 : Str → Document} (h : ParsesPages html5) {isle : Str → Bool} {cs : List Html}
    (hp : (PageTree.ofBody cs).ok isle = true) :
    ∃ b, Parsed (PageTree.ofBody cs) (parseWith html5 (wrapBody (Html.serL false cs))) b := by
  simp only [PageTree.ok, Bool.and_eq_true] at hp
  obtain ⟨⟨⟨⟨_, h2⟩, _⟩, _⟩, _⟩ := hp
  have hok := h2
  simp only [Html.okPage, Bool.and_eq_true] at h2
  obtain ⟨D', e1, e2, e3⟩ := readPage_content (cs := cs) h2.1.2 h2.2
  have eW : wrapBody (Html.serL false cs) =
      "<html".toList ++ ("><body>".toList ++ Html.serL false cs ++ "</body></html>".toList) := by
    have : "<html><body>".toList = "<html".toList ++ "><body>".toList := by decide +kernel
    unfold wrapBody
    rw [this]
    simp only [List.append_assoc]
  obtain ⟨n1, n2⟩ := html_not_doctype ("><body>".toList ++ Html.serL false cs ++ "</body></html>".toList)
  rw [← eW] at n1 n2
  have eP : parseInput (wrapBody (Html.serL false cs)) =
      "<!DOCTYPE html><html><body>".toList ++ Html.serL false cs ++ "</body></html>".toList := by
    have : "<!DOCTYPE html><html><body>".toList = "<!DOCTYPE html>".toList ++ "<html><body>".toList := by decide +kernel
    rw [parseInput, n1, n2, this, List.append_assoc, List.append_assoc]
    show "<!DOCTYPE html>".toList ++ wrapBody (Html.serL false cs) = _
    unfold wrapBody
    simp only [List.append_assoc]
  rw [← eP] at e1
  obtain ⟨r1, r2, _⟩ := h.reads _ _ e1
  have hq : parseWith html5 (wrapBody (Html.serL false cs)) =
      { html5 (parseInput (wrapBody (Html.serL false cs))) with doctype := none } := by
    simp only [parseWith]
    rw [n1]
    rfl
  obtain ⟨b, hb, _⟩ := body_kind (gap := []) r1.arena.wf rfl (r2.trans e3)
  rw [hq]
  exact ⟨b, Parsed.of_tree (p := PageTree.ofBody cs)
    (D := { html5 (parseInput (wrapBody (Html.serL false cs))) with doctype := none }) ⟨r1.arena, r1.root_lt⟩ (r2.trans e3) hok (h.html _ _ e1)
    (h.simple _ _ e1) hb⟩

theorem fragment_read {frag : Str → Document} (h : ParsesFragments frag) {cs : List Html}
    (hr : Html.readableL ["html".toList] cs = true) (ha : Html.apartB cs = true) :
    (frag (Html.serL false cs)).Sound ∧ AllSimple (frag (Html.serL false cs)).arena ∧
    (frag (Html.serL false cs)).arena.forest (frag (Html.serL false cs)).root = cs := by
  obtain ⟨D', h1, h2, h3⟩ := readFragment_forest hr ha
  obtain ⟨r1, r2⟩ := h.reads _ _ h1
  refine ⟨r1, h.simple _ _ h1, ?_⟩
  rw [h3, r1.arena.wf.tree_eq] at r2
  unfold Html.ofKind at r2
  split at r2 <;> simp only [Html.element.injEq, reduceCtorEq] at r2
  exact r2.2.2

theorem ok_parts {dom : WebDom} {isle : Str → Bool} {cs : List Html} (h : ok dom isle cs = true) :
    (PageTree.ofBody cs).ok isle = true ∧ (PageTree.ofBody cs).bare isle = true ∧ (PageTree.ofBody cs).accepted dom = true ∧
    Html.readableL ["html".toList] cs = true ∧ Html.apartB cs = true := by
  simp only [ok, Bool.and_eq_true] at h
  obtain ⟨⟨⟨h1, h2⟩, h3⟩, h4⟩ := h
  refine ⟨h1, h2, h3, h4, ?_⟩
  simp only [PageTree.ok, Html.okPage, Bool.and_eq_true] at h1
  exact h1.1.1.1.2.2

/-- **C85**, partial: the content that is set is the content that is got. Missing: texts that are not the HTML of a
content that can be read (C83): a browser gives back its own version of these. -/
theorem C85_set_get_partial {frag : Str → Document} (hf : ParsesFragments frag) {E : Arena NodeData} (hE : E.Sound)
    {doc b : Nat} (hb : documentBody E doc = some b) {cs : List Html} (hr : Html.readableL ["html".toList] cs = true)
    (ha : Html.apartB cs = true) :
    ∃ E', setBodyInnerHtml frag E doc (Html.serL false cs) = .ok E' ∧ E'.forest b = cs ∧
      getBodyInnerHtml E' doc = .ok (Html.serL false cs) := by
  obtain ⟨h1, _, h3⟩ := fragment_read hf hr ha
  obtain ⟨E', e1, _, _, e2, e3, _⟩ := C85_set_body frag hE hb _ h1
  exact ⟨E', e1, e2.trans h3, by rw [e3, h3]⟩

/-! ### Updates -/

variable {H : Type} [DecidableEq H] {hashNode : HKind → Option Str → List H → H}

/-- The document behind `diff_html` for a content. -/
def read (html5 : Str → Document) (cs : List Html) : Document := parseWith html5 (wrapBody (Html.serL false cs))

theorem updates_of {dom : WebDom} {html5 : Str → Document} {doc : Nat} : ∀ (c : List Html) (cs : List (List Html)),
    (∀ d ∈ c :: cs, ∀ e ∈ c :: cs, ∀ ps, diff hashNode (read html5 d) (read html5 e) = .ok ps → ps.map Patch.u32 = ps) →
    ∀ {E E' : Arena NodeData}, E.WF → updatesOn dom hashNode doc .body E (read html5 c) (cs.map (read html5)) = .ok E' →
    updates dom hashNode (parseWith html5) doc E (Html.serL false c) (cs.map (Html.serL false)) = some E' ∧ E'.WF
  | c, [], _, E, E', hE, e => by cases e; exact ⟨rfl, hE⟩
  | c, d :: cs, hs, E, E', hE, e => by
    simp only [List.map_cons, updatesOn] at e
    obtain ⟨ps, e1, e⟩ := res_bind e
    obtain ⟨E1, e2, e⟩ := res_bind e
    unfold applyPatchesOn at e2
    obtain ⟨b, e3, e2⟩ := res_bind e2
    have hb : b < E.next := by
      simp only [resolveMountPoint] at e3
      split at e3
      · next hd => cases e3; exact documentBody_lt hE hd
      · cases e3
    have hu := hs c (by simp) d (by simp) ps e1
    have hread := Json.C82_patches_arrive ps hu
    obtain ⟨g1, g2⟩ := updates_of d cs (fun x hx y hy => hs x (List.mem_cons_of_mem _ hx) y (List.mem_cons_of_mem _ hy))
      (C53_page_stays_a_tree dom hE hb e2).1 e
    refine ⟨?_, g2⟩
    have ej : Json.diffHtml hashNode (parseWith html5 (wrapBody (Html.serL false c)))
        (parseWith html5 (wrapBody (Html.serL false d))) = .ok (Json.write ps) := by
      unfold Json.diffHtml
      unfold read at e1
      rw [e1]
      rfl
    have ea : applyPatchesJson dom E doc (Json.write ps) = some E1 := by
      unfold applyPatchesJson Json.applyJson
      simp only [e3, hread, e2, Option.map_some]
    rw [List.map_cons, updates]
    simp only [ej, ea]
    exact g1

/-- **C85**, partial: the content of the body of a page is set as a text, and then the page is taken from version to
version by `diff_html` and `apply_patches_json`, which both work on texts. No call fails; in the end the page gives back
the text of the last version and has its nodes, up to empty texts; no text has children, the body has its own tag and
attributes, and nothing outside the body has changed. If the page and the first content are in the namespace of HTML, then
so is the page in the end.
Missing: contents that do not meet `ok` (C83, C36, C49), contents whose elements cannot be ranked (C02), and collisions of
hashes (C03). -/
theorem C85_versions_partial (dom : WebDom) {html5 frag : Str → Document} (hs : ParsesPages html5)
    (hf : ParsesFragments frag) {E : Arena NodeData} {doc b : Nat} (hE : Stage E doc b) {isle : Str → Bool}
    {rank : Str → Nat} {m : Nat} (hm : rank "body".toList < m) {c : List Html} {cs : List (List Html)}
    (hok : ∀ d ∈ c :: cs, ok dom isle d = true ∧ Html.layeredL rank m (rank "body".toList) d = true)
    (hc : ∀ d ∈ c :: cs, ∀ e ∈ c :: cs, ∀ ob nb, (read html5 d).body = some ob → (read html5 e).body = some nb →
      NoCollision hashNode (buildTree (read html5 d) ob) (diffable (read html5 e)) nb)
    (hsz : ∀ d ∈ c :: cs, (Html.serL false d).length < 2 ^ 29) :
    ∃ E1 E2, setBodyInnerHtml frag E doc (Html.serL false c) = .ok E1 ∧
      getBodyInnerHtml E1 doc = .ok (Html.serL false c) ∧
      updates dom hashNode (parseWith html5) doc E1 (Html.serL false c) (cs.map (Html.serL false)) = some E2 ∧
      getBodyInnerHtml E2 doc = .ok (Html.serL false ((c :: cs).getLast (by simp))) ∧
      documentBody E2 doc = some b ∧ looks E2 b = looks E b ∧
      (∀ n, n < E.next → ¬ E.Anc b n →
        E2.parent n = E.parent n ∧ E2.children n = E.children n ∧ E2.data n = E.data n) ∧
      tagOf E2 b = tagOf E b ∧ E2.WF ∧ (∀ n s, E2.Anc b n → (E2.data n).kind = .text s → E2.children n = []) ∧
      Html.pruneL (Html.unqL (E2.forest b)) = Html.pruneL (Html.unqL ((c :: cs).getLast (by simp))) ∧
      (Reader.AllHtml E → Reader.AllHtml (frag (Html.serL false c)).arena → Reader.AllHtml E2) := by
  have hwf := hE.sound.wf
  have hlt := documentBody_lt hwf hE.body
  obtain ⟨tag, as, hk⟩ := documentBody_kind hE.body
  obtain ⟨o1, _, _, o4, o5⟩ := ok_parts (hok c (by simp)).1
  obtain ⟨f1, f2, f3⟩ := fragment_read hf o4 o5
  obtain ⟨E1, e1, hfill⟩ := setInnerHtml_fills (P := fun d => d.Lower ∧
      (Reader.AllHtml E → Reader.AllHtml (frag (Html.serL false c)).arena → d.ns = .html)) (frag := frag)
    ⟨hE.sound, fun n => ⟨hE.lower n, fun h _ => h n⟩⟩ hlt hk
    (html := Html.serL false c) ⟨f1.arena, fun n => ⟨lower_of_simple f2 n, fun _ h => h n⟩⟩
  rw [f3] at hfill
  have hp1 := hfill.samePlace hwf hlt
  have hb1 := documentBody_same hp1 hwf hE.body
  have hs1 := hfill.tidy.sound
  have hdoc : ∀ d ∈ c :: cs, ∃ nb, Parsed (PageTree.ofBody d) (read html5 d) nb :=
    fun d hd => wrap_read hs (ok_parts (hok d hd).1).1
  have hpar : ∀ d ∈ c :: cs, Parsed (PageTree.ofBody d) (read html5 d) ((read html5 d).body.getD 0) := by
    intro d hd
    obtain ⟨nb, h⟩ := hdoc d hd
    have : (read html5 d).body.getD 0 = nb := by rw [h.plain.body]; rfl
    rw [this]
    exact h
  have hup : ∀ d ∈ c :: cs, ∀ e ∈ c :: cs, Updatable dom hashNode bareName True (read html5 d) (read html5 e)
      ((read html5 d).body.getD 0) ((read html5 e).body.getD 0) := by
    intro d hd e he
    have h1 := hpar d hd
    have h2 := hpar e he
    obtain ⟨p1, p2, _⟩ := ok_parts (hok d hd).1
    obtain ⟨q1, q2, q3, _⟩ := ok_parts (hok e he).1
    have hcm := h1.comparable h2
    have hc' := hc d hd e he _ _ h1.plain.body h2.plain.body
    have ho := h1.opaqueFixed h2 p1 q1 p2 q2 hc'
    exact ⟨hcm, hc', ho.agree, fun _ => ho.same,
      .inr (noInversion_of_layered hcm hc' ho.agree (h1.layered hm (hok d hd).2) (h2.layered hm (hok e he).2)),
      ⟨h1.names, h2.names⟩, fun ps h => C31_names_from_new dom hcm hc' ho.agree (h2.kept q1 q3) h⟩
  have hkb : (E1.data b).kind = .element tag as := by rw [hfill.data b hlt]; exact hk
  have hhost : Hosts bareName E1 b (read html5 c) := by
    refine ⟨hs1.wf, documentBody_lt hs1.wf hb1, ?_, fun n => (hfill.tidy.all n).1,
      ⟨tag, as, hkb, fun kv h => (hE.own tag as hk kv h).1, hE.sound.uniq b tag as hk⟩, ?_⟩
    · intro n ha hne
      cases hkn : (E1.data n).kind with
      | element t a => exact ⟨t, a, rfl⟩
      | text s => exact absurd (hs1.leaf n (.inl ⟨s, hkn⟩)) hne
      | comment s => exact absurd (hs1.leaf n (.inr ⟨s, hkn⟩)) hne
      | document =>
        rcases ha.cases' with e | ⟨q, hq, _⟩
        · subst e; rw [hkb] at hkn; cases hkn
        · exact absurd hkn (hs1.nodoc n q hq)
    · rw [hfill.forest, (hpar c (by simp)).forest]
      rfl
  have hbare : ∀ A ∈ cs.map (read html5), A.BareBody (A.body.getD 0) := by
    intro A hA
    obtain ⟨d, hd, rfl⟩ := List.mem_map.1 hA
    exact ⟨"body".toList, (hpar d (by simp [hd])).bodyKind⟩
  have hchain : ∀ (l : List (List Html)), (∀ d ∈ l, d ∈ c :: cs) → (l.map (read html5)).IsChain fun A B =>
      Updatable dom hashNode bareName True A B (A.body.getD 0) (B.body.getD 0) := by
    intro l
    induction l with
    | nil => intro _; simp
    | cons d l ih =>
      intro h
      cases l with
      | nil => simp
      | cons e l =>
        simp only [List.map_cons, List.isChain_cons_cons]
        exact ⟨hup d (h d (by simp)) e (h e (by simp)), ih fun x hx => h x (List.mem_cons_of_mem _ hx)⟩
  obtain ⟨E2, u1, u2, u3, u4, u5, u6, u7, u8, u9, u10⟩ := C64_mount_point_follows_partial (hashNode := hashNode) dom plainNames_bare
    (fun A => A.body.getD 0) (Ds := cs.map (read html5)) hhost (resolve_body hb1)
    (by
      intro A hA
      rw [← List.map_cons] at hA
      obtain ⟨d, hd, rfl⟩ := List.mem_map.1 hA
      exact hup d hd d hd)
    (by rw [← List.map_cons]; exact hchain _ fun _ h => h) (.inl rfl)
  have hsize : ∀ d ∈ c :: cs, (read html5 d).size ≤ 2 ^ 29 := fun d hd =>
    Nat.le_trans ((hpar d hd).size_le_body (PageTree.okPage_of_ok (ok_parts (hok d hd).1).1)) (hsz d hd)
  obtain ⟨v1, v2⟩ := updates_of c cs (fun d hd e he ps hps =>
    C66_bodies_fit_u32 (hup d hd e he).comparable (hup d hd e he).noCollision
      (by have := hsize d hd; have := hsize e he; omega) hps) hs1.wf u1
  have hb2 : documentBody E2 doc = some b := by
    simp only [resolveMountPoint] at u2
    split at u2
    · next h => cases u2; exact h
    · cases u2
  obtain ⟨tag2, as2, hk2⟩ := documentBody_kind hb2
  have hl : (read html5 c :: cs.map (read html5)).getLast (by simp) = read html5 ((c :: cs).getLast (by simp)) := by
    simp only [← List.map_cons, List.getLast_map]
  refine ⟨E1, E2, ?_, ?_, v1, ?_, hb2, ?_, ?_, ?_, v2, u10, ?_, fun h1 h2 => u9 fun n => (hfill.tidy.all n).2 h1 h2⟩
  · unfold setBodyInnerHtml
    rw [resolve_body hE.body]
    exact e1
  · rw [get_eq hb1, hfill.forest]
  · rw [get_eq hb2]
    rw [v2.tree_eq, hk2] at u3
    simp only [Html.ofKind, Html.inner] at u3
    rw [u3, toBodyHtml_eq, hl, (hpar _ (List.getLast_mem (by simp))).forest]
    rfl
  · rw [u7 hbare]
    unfold looks
    rw [hfill.data b hlt]
  · intro n hn ha
    have ha1 : ¬ E1.Anc b n := by
      intro h
      have key : ∀ {x}, E1.Anc b x → x < E.next → E.Anc b x := by
        intro x h
        induction h with
        | refl => exact fun _ => .refl
        | @step x p hp _ ih =>
          intro hx
          by_cases hxc : x ∈ E.children b
          · exact .step ((hwf.mem_iff _ _).1 hxc) .refl
          · rw [hfill.parent x hx hxc] at hp
            exact .step hp (ih (hwf.lt_of_parent _ _ hp).2)
      exact ha (key h hn)
    obtain ⟨a1, a2, a3⟩ := hp1.out n hn ha
    obtain ⟨b1, b2, b3⟩ := u4 n (Nat.lt_of_lt_of_le hn hfill.le) ha1
    exact ⟨b1.trans a1, b2.trans a2, b3.trans a3⟩
  · rw [u6]
    unfold tagOf
    rw [hfill.data b hlt]
  · rw [u8, hl, (hpar _ (List.getLast_mem (by simp))).forest]
    rfl

/-- **C85**, partial: a test case of the project's browser tests passes whenever its contents can be read: after the old
content was set and the patches were applied that `diff_html` computed, the page gives back the new content.
Missing: as above. -/
theorem C85_test_case_partial (dom : WebDom) {html5 frag : Str → Document} (hs : ParsesPages html5)
    (hf : ParsesFragments frag) {E : Arena NodeData} {doc b : Nat} (hE : Stage E doc b) {isle : Str → Bool}
    {rank : Str → Nat} {m : Nat} (hm : rank "body".toList < m) {old new : List Html}
    (hok : ∀ d ∈ [old, new], ok dom isle d = true ∧ Html.layeredL rank m (rank "body".toList) d = true)
    (hc : ∀ d ∈ [old, new], ∀ e ∈ [old, new], ∀ ob nb, (read html5 d).body = some ob → (read html5 e).body = some nb →
      NoCollision hashNode (buildTree (read html5 d) ob) (diffable (read html5 e)) nb)
    (hsz : ∀ d ∈ [old, new], (Html.serL false d).length < 2 ^ 29) :
    ∃ patches, Json.diffHtml hashNode (parseWith html5 (wrapBody (Html.serL false old)))
        (parseWith html5 (wrapBody (Html.serL false new))) = .ok patches ∧
      runTestCase dom frag E doc (Html.serL false old) patches = some (Html.serL false new) := by
  obtain ⟨E1, E2, h1, _, h3, h4, _⟩ := C85_versions_partial (hashNode := hashNode) dom hs hf hE hm hok hc hsz
  simp only [List.map_cons, List.map_nil, updates] at h3
  split at h3
  · cases h3
  · next s es =>
    split at h3
    · cases h3
    · next E3 e3 =>
      cases h3
      refine ⟨s, es, ?_⟩
      unfold runTestCase
      simp only [h1, e3, h4]
      rfl

/-! ### Concrete cases -/

/-- The fragment parser of the examples. -/
def readBodyHtml (text : Str) : Document := (readFragment text).getD Document.new

/-- A page as a browser has it, with a document node; its body has a class. -/
def shopPage : Arena NodeData := (readHtml5 shopOld.text).arena

theorem stage_of {p : PageTree} {D : Document} {doc b : Nat} (h : Parsed p D b) (hb : documentBody D.arena doc = some b) :
    Stage D.arena doc b := ⟨h.plain.sound.arena, h.lower, hb, h.simple b⟩

theorem shopPage_stage : Stage shopPage 0 6 := by
  have hb : (readHtml5 shopOld.text).body = some 6 := by decide +kernel
  have h : Parsed shopOld (readHtml5 shopOld.text) 6 := Parsed.of_reads parsesPages_reader shop_ok.1 hb
  exact stage_of h (by decide +kernel)

theorem shop_contents : (∀ d ∈ [shopOld.body, shopNew.body], ok WebDom.lenient shopIsle d = true ∧
    Html.layeredL shopRank 5 (shopRank "body".toList) d = true) ∧
    (∀ d ∈ [shopOld.body, shopNew.body], (Html.serL false d).length < 2 ^ 29) := by
  have : ∀ d ∈ [shopOld.body, shopNew.body], (ok WebDom.lenient shopIsle d &&
    Html.layeredL shopRank 5 (shopRank "body".toList) d && decide ((Html.serL false d).length ≤ 1000)) = true := by
    decide +kernel
  simp only [Bool.and_eq_true, decide_eq_true_eq] at this
  exact ⟨fun d hd => (this d hd).1, fun d hd => by have := (this d hd).2; omega⟩

/-- The hypotheses of `C85_test_case_partial` hold for a page and two contents, and so does its conclusion. -/
example : ∃ patches, Json.diffHtml Shape.node (parseWith readHtml5 (wrapBody (Html.serL false shopOld.body)))
        (parseWith readHtml5 (wrapBody (Html.serL false shopNew.body))) = .ok patches ∧
      runTestCase WebDom.lenient readBodyHtml shopPage 0 (Html.serL false shopOld.body) patches =
        some (Html.serL false shopNew.body) :=
  C85_test_case_partial (hashNode := Shape.node) WebDom.lenient (html5 := readHtml5) (frag := readBodyHtml)
    parsesPages_reader parsesFragments_reader shopPage_stage (isle := shopIsle) (rank := shopRank) (m := 5)
    (by decide +kernel) shop_contents.1 (fun _ _ _ _ _ _ _ _ => noCollision_shape _ _ _) shop_contents.2

/-- The hypotheses of `C85_versions_partial` hold for any number of changes between these contents. -/
example (l : List Bool) : ∃ E1 E2, setBodyInnerHtml readBodyHtml shopPage 0 (Html.serL false shopOld.body) = .ok E1 ∧
    updates WebDom.lenient Shape.node (parseWith readHtml5) 0 E1 (Html.serL false shopOld.body)
      ((l.map fun x => if x then shopOld.body else shopNew.body).map (Html.serL false)) = some E2 ∧
    looks E2 6 = [("class".toList, "k".toList)] := by
  have hmem : ∀ d ∈ shopOld.body :: l.map fun x => if x then shopOld.body else shopNew.body,
      d ∈ [shopOld.body, shopNew.body] := by
    intro d hd
    simp only [List.mem_cons, List.mem_map, List.not_mem_nil, or_false] at hd ⊢
    rcases hd with h | ⟨x, _, rfl⟩
    · exact .inl h
    · cases x <;> simp
  obtain ⟨E1, E2, h1, _, h3, _, _, h6, _⟩ := C85_versions_partial (hashNode := Shape.node) WebDom.lenient (html5 := readHtml5)
    (frag := readBodyHtml) parsesPages_reader parsesFragments_reader shopPage_stage (isle := shopIsle) (rank := shopRank)
    (m := 5) (by decide +kernel) (fun d hd => shop_contents.1 d (hmem d hd))
    (fun _ _ _ _ _ _ _ _ => noCollision_shape _ _ _) (fun d hd => shop_contents.2 d (hmem d hd))
  exact ⟨E1, E2, h1, h3, by rw [h6]; decide +kernel⟩

/-- The hypotheses of `C85_set_body` and `C85_set_get_partial` hold for this page and the new content. -/
example : shopPage.Sound ∧ documentBody shopPage 0 = some 6 ∧ shopPage.children 6 ≠ [] ∧
    Html.readableL ["html".toList] shopNew.body = true ∧ Html.apartB shopNew.body = true ∧
    (readBodyHtml (Html.serL false shopNew.body)).Sound := by
  obtain ⟨_, _, _, h4, h5⟩ := ok_parts (shop_contents.1 shopNew.body (by simp)).1
  exact ⟨shopPage_stage.sound, shopPage_stage.body, by decide +kernel, h4, h5,
    (fragment_read parsesFragments_reader h4 h5).1⟩

/-! ### Violations -/

/-- What the page of the examples shows after a test case, and what it should show. -/
def testCase (old new : Str) : Option (Option Str) :=
  match Json.diffHtml Shape.node (parseWith readHtml5 (wrapBody old)) (parseWith readHtml5 (wrapBody new)) with
  | .ok s => some (runTestCase WebDom.lenient readBodyHtml shopPage 0 old s)
  | .error _ => none

/-- **C85** is violated: there are two contents that can be read and have no opaque elements, for which a test case runs
to its end but the page does not show the new content; and there is a text, other than the HTML of what it stands for,
that is not given back as it was set. -/
theorem C85_violated :
    (∃ a b : List Html, ok WebDom.lenient (fun _ => false) a = true ∧ ok WebDom.lenient (fun _ => false) b = true ∧
      (match testCase (Html.serL false a) (Html.serL false b) with
        | some (some s) => decide (s ≠ Html.serL false b)
        | _ => false) = true) ∧
    (∃ text : Str, (readFragment text).isSome = true ∧
      (match setBodyInnerHtml readBodyHtml shopPage 0 text with
        | .ok E => (match getBodyInnerHtml E 0 with
          | .ok s => decide (s ≠ text)
          | .error _ => false)
        | .error _ => false) = true) :=
  ⟨⟨bad1, bad2, by decide +kernel⟩, ⟨"&quot;".toList, by decide +kernel⟩⟩

end BodyHtml
end Hotmeal
