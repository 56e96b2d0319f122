import Verif.Lemmas.Postcard
import Verif.Props.BrowserErrors

set_option autoImplicit false
set_option linter.unusedSectionVars false

/-!
# C81: events and patches as bytes
-/

namespace Hotmeal.Postcard

/-- **C81**: the browser reads the patches that the server wrote, each with its names as they are after a trip through
`QualNameProxy`. The numbers in them have to fit in 32 bits, as all numbers in `u32` do, and the bytes have to be
fewer than 2^32, as all vectors in the browser are. -/
theorem C81_patches_arrive (ps : List Patch) (hn : ps.map Patch.u32 = ps) (hl : (writePatches ps).length < 2 ^ 32) :
    readPatches (writePatches ps) = some (ps.map Patch.wire) := by
  have := reads_patches (fits_of_u32 hn) (Nat.le_refl _) (by omega) []
  rw [List.append_nil] at this
  unfold readPatches
  rw [this]
  rfl

/-- **C81**, for what `diff` makes: the patches of two documents with at most 2^30 nodes and no empty prefixes in
the new one arrive as they are. -/
theorem C81_diff_arrives {H : Type} [DecidableEq H] (hashNode : HKind → Option Str → List H → H) (old new : Document)
    (hold : old.Sound) (hnew : new.Sound) (hp : new.NoEmptyPrefix)
    (hsz : old.arena.next + new.arena.next ≤ 2 ^ 30) {ps : List Patch} (hd : diff hashNode old new = .ok ps)
    (hl : (writePatches ps).length < 2 ^ 32) : readPatches (writePatches ps) = some ps := by
  rw [C81_patches_arrive ps (C66_fits_u32 hold hnew hsz hd) hl, C45_patches_arrive_unchanged_partial old hp hd]

/-- An event that can be sent: its numbers fit in 32 bits, and it has fewer than 2^32 bytes. -/
def Sendable (e : Event) : Prop :=
  (writeEvent e).length < 2 ^ 32 ∧ ∀ route ps, e = .patches route ps → ps.map Patch.u32 = ps

/-- What the browser has read of the event. -/
def RawEvent.of : Event → RawEvent
  | .reload => .reload
  | .patches route ps => .patches route (writePatches ps)
  | .headChanged route => .headChanged route

theorem reads_event {e : Event} (h : (writeEvent e).length < 2 ^ 32) : Reads getEvent (writeEvent e) (.of e) := by
  cases e with
  | reload => exact (reads_variant 0 (by decide)).bind (c := []) (Reads.pure _)
  | patches route ps =>
    simp only [writeEvent, List.length_cons, List.length_append] at h ⊢
    have := length_putBytes (writePatches ps)
    exact (reads_variant 1 (by decide)).bind ((reads_str (by omega)).bind (reads_bytes (by omega)).last)
  | headChanged route =>
    simp only [writeEvent, List.length_cons] at h ⊢
    exact (reads_variant 2 (by decide)).bind (reads_str (by omega)).last

/-- **C81**: a client that gets the bytes of an event does what the event says. -/
theorem C81_event_arrives (dom : WebDom) (fresh p : Page) (e : Event) (h : Sendable e) :
    handleBytes dom fresh p (writeEvent e) = Page.handleKeep dom fresh p e := by
  have h1 := reads_event h.1 []
  rw [List.append_nil] at h1
  have h2 : readEvent (writeEvent e) = some (.of e) := by unfold readEvent; rw [h1]; rfl
  unfold handleBytes
  rw [h2]
  cases e with
  | reload => rfl
  | headChanged => rfl
  | patches route ps =>
    have hl : (writePatches ps).length < 2 ^ 32 := by
      have := h.1
      have := length_putBytes (writePatches ps)
      simp only [writeEvent, List.length_cons, List.length_append] at *
      omega
    simp only [RawEvent.of, C81_patches_arrive ps (h.2 _ _ rfl) hl]
    rfl

/-- **C81**: when only a part of an event arrives, it is rejected, and the client leaves the page as it is. -/
theorem C81_cut_event (dom : WebDom) (fresh p : Page) (e : Event) (h : (writeEvent e).length < 2 ^ 32) (b c : Bytes)
    (he : writeEvent e = b ++ c) (hc : c ≠ []) : readEvent b = none ∧ handleBytes dom fresh p b = p := by
  have hr := reads_event h
  rw [he] at hr
  have : readEvent b = none := by unfold readEvent; rw [solid_event.short hr hc]; rfl
  exact ⟨this, by unfold handleBytes; rw [this]⟩

/-- **C81**: the same for patches that are given to the client as bytes. -/
theorem C81_cut_patches (ps : List Patch) (hn : ps.map Patch.u32 = ps) (hl : (writePatches ps).length < 2 ^ 32)
    (b c : Bytes) (he : writePatches ps = b ++ c) (hc : c ≠ []) : readPatches b = none := by
  obtain ⟨N, hN⟩ : ∃ N, (writePatches ps).length = N := ⟨_, rfl⟩
  have hr := reads_patches (k := N) (fits_of_u32 hn) (Nat.le_of_eq hN) (Nat.le_of_lt hl)
  rw [he] at hr hN
  have : getSeq (getPatch b.length) b = none := by
    cases hb : getSeq (getPatch b.length) b with
    | none => rfl
    | some y =>
      have hm := more_seq (more_patch (k := b.length) (j := N) (by simp [← hN])) b y hb
      rw [(solid_seq (solid_patch N)).short hr hc] at hm
      cases hm
  unfold readPatches
  rw [this]
  rfl

/-- **C81**: different events have different bytes, apart from what the names of attributes lose in
`QualNameProxy`. -/
theorem C81_unambiguous (e f : Event) (he : Sendable e) (hf : Sendable f) (h : writeEvent e = writeEvent f) :
    match e, f with
    | .reload, .reload => True
    | .patches r ps, .patches s qs => r = s ∧ ps.map Patch.wire = qs.map Patch.wire
    | .headChanged r, .headChanged s => r = s
    | _, _ => False := by
  have h1 := reads_event he.1 []
  rw [h, reads_event hf.1 []] at h1
  simp only [Option.some.injEq, Prod.mk.injEq, and_true] at h1
  cases e <;> cases f <;> simp only [RawEvent.of, reduceCtorEq, RawEvent.headChanged.injEq,
    RawEvent.patches.injEq] at h1 ⊢
  · obtain ⟨e1, e2⟩ := h1
    have len : ∀ r ps, Sendable (.patches r ps) → (writePatches ps).length < 2 ^ 32 := by
      intro r ps hs
      have := hs.1
      have := length_putBytes (writePatches ps)
      simp only [writeEvent, List.length_cons, List.length_append] at *
      omega
    have k1 := C81_patches_arrive _ (he.2 _ _ rfl) (len _ _ he)
    have k2 := C81_patches_arrive _ (hf.2 _ _ rfl) (len _ _ hf)
    rw [e2, k1] at k2
    exact ⟨e1.symm, Option.some.inj k2⟩
  · exact h1.symm

/-! ### A client that gets its events as bytes -/

/-- The events that are sent to the client of a route, hotmeal-server/src/lib.rs:120-190: those of calls about the
route while the client is connected. -/
def sent {E : Type} (diffHtml : Str → Str → Except E (List Patch)) (route : Str) (S : Server) :
    List (Bool × Server.Call) → List Event
  | [] => []
  | (on, c) :: cs =>
    (if on = true ∧ c.route = some route then (S.run diffHtml c).2.toList else []) ++
      sent diffHtml route (S.run diffHtml c).1 cs

/-- **C81**: a client that gets its events as bytes shows what it would show if it got the events, whatever is called
on the server and whenever the client is connected. -/
theorem C81_session {E : Type} (dom : WebDom) (diffHtml : Str → Str → Except E (List Patch)) (load : Str → Page)
    (route : Str) : ∀ (calls : List (Bool × Server.Call)) (S : Server) (p : Page),
    (∀ e ∈ sent diffHtml route S calls, Sendable e) →
    byteRun dom diffHtml load route S p calls = S.keepRun dom diffHtml load route p calls := by
  intro calls
  induction calls with
  | nil => intro S p _; rfl
  | cons x cs ih =>
    obtain ⟨on, c⟩ := x
    intro S p h
    simp only [sent] at h
    simp only [byteRun]
    have h2 := fun e he => h e (List.mem_append_right _ he)
    cases on with
    | false =>
      simp only [Bool.false_eq_true, false_and, if_false, Server.keepRun]
      exact ih _ _ h2
    | true =>
      simp only [true_and] at h ⊢
      simp only [Server.keepRun, Server.keepStep]
      by_cases hc : c.route = some route
      · simp only [if_pos hc] at h ⊢
        rw [ih _ _ h2]
        cases hev : (S.run diffHtml c).2 with
        | none => rfl
        | some e =>
          simp only
          rw [C81_event_arrives dom _ p e (h e (by simp [hev]))]
      · simp only [if_neg hc]
        exact ih _ _ h2

/-- What a call that follows the rules does to the cached HTML of the route, and where its patches are from. -/
theorem run_ok {E : Type} (diffHtml : Str → Str → Except E (List Patch)) (route : Str) (ok : Str → Prop) (S : Server)
    (c : Server.Call) (hc : c.Follows ok route) (hS : ∀ h, S.html route = some h → ok h) :
    (∀ h, (S.run diffHtml c).1.html route = some h → ok h) ∧
    (c.route = some route → ∀ r ps, (S.run diffHtml c).2 = some (.patches r ps) →
      ∃ a b, ok a ∧ ok b ∧ diffHtml a b = .ok ps) := by
  have hput : ∀ r h', (r = route → ok h') → ∀ h, Server.put S.html r (some h') route = some h → ok h := by
    intro r h' hr h hh
    unfold Server.put at hh
    split at hh
    · rename_i e; cases hh; exact hr e.symm
    · exact hS h hh
  have hnone : ∀ r, ∀ h, Server.put S.html r none route = some h → ok h := by
    intro r h hh
    unfold Server.put at hh
    split at hh
    · cases hh
    · exact hS h hh
  have hdiff : ∀ (S0 : Server) r h', S0.html = S.html → (r = route → ok h') →
      (∀ h, (S0.diffRoute diffHtml r h').1.html route = some h → ok h) ∧
      (r = route → ∀ r' ps, (S0.diffRoute diffHtml r h').2 = some (.patches r' ps) →
        ∃ a b, ok a ∧ ok b ∧ diffHtml a b = .ok ps) := by
    intro S0 r h' e0 hr
    unfold Server.diffRoute
    rw [e0]
    cases e : S.html r with
    | none => exact ⟨hput r h' hr, fun _ _ _ h => nomatch h⟩
    | some old =>
      simp only
      split
      · exact ⟨fun h hh => hS h (by rwa [e0] at hh), fun _ _ _ h => nomatch h⟩
      · cases ed : diffHtml old h' with
        | error => exact ⟨hput r h' hr, fun _ _ _ h => nomatch h⟩
        | ok qs =>
          simp only
          split
          · exact ⟨hput r h' hr, fun _ _ _ h => nomatch h⟩
          · refine ⟨hput r h' hr, fun er r' ps h => ?_⟩
            cases h
            exact ⟨old, h', hS old (er ▸ e), hr er, ed⟩
  cases c with
  | cacheHtml r h => exact ⟨hput r h fun e => absurd e hc, fun _ _ _ h => nomatch h⟩
  | cacheHead r i => exact ⟨hS, fun _ _ _ h => nomatch h⟩
  | removeRoute r => exact ⟨hnone r, fun _ _ _ h => nomatch h⟩
  | clear => exact ⟨fun _ h => (by cases h), fun _ _ _ h => nomatch h⟩
  | diffRoute r h =>
    obtain ⟨k1, k2⟩ := hdiff S r h rfl hc
    exact ⟨k1, fun e => k2 (Option.some.inj e)⟩
  | diffRouteWithHead r h i =>
    simp only [Server.run, Server.diffRouteWithHead, Server.Call.route]
    split
    · exact ⟨hput r h hc, fun _ _ _ h => nomatch h⟩
    · obtain ⟨k1, k2⟩ := hdiff (S.cacheHead r i).1 r h rfl hc
      exact ⟨k1, fun e => k2 (Option.some.inj e)⟩

theorem sent_from {E : Type} (diffHtml : Str → Str → Except E (List Patch)) (route : Str) (ok : Str → Prop) :
    ∀ (calls : List (Bool × Server.Call)) (S : Server), (∀ c ∈ calls, c.2.Follows ok route) →
    (∀ h, S.html route = some h → ok h) → ∀ r ps, .patches r ps ∈ sent diffHtml route S calls →
    ∃ a b, ok a ∧ ok b ∧ diffHtml a b = .ok ps := by
  intro calls
  induction calls with
  | nil => intro S _ _ r ps h; cases h
  | cons x cs ih =>
    obtain ⟨on, c⟩ := x
    intro S hc hS r ps h
    obtain ⟨k1, k2⟩ := run_ok diffHtml route ok S c (hc (on, c) (by simp)) hS
    simp only [sent, List.mem_append] at h
    rcases h with h | h
    · split at h
      · rename_i e
        exact k2 e.2 r ps (Option.mem_toList.1 h)
      · cases h
    · exact ih _ (fun c hc' => hc c (by simp [hc'])) k1 r ps h

/-- **C49**, partial, with bytes: a client that loaded the HTML cached for its route and gets its events as bytes shows the HTML
that is cached, as in `C49_reconnect_partial`, if all bodies have at most 2^29 nodes and all messages fewer than
2^32 bytes. Missing: as there. -/
theorem C49_reconnect_bytes_partial {H : Type} [DecidableEq H] {hashNode : HKind → Option Str → List H → H}
    {N : QualName → Prop} (dom : WebDom) (parse : Str → Document) (body : Str → Nat)
    (load : Str → Page) (route : Str) (ok : Str → Prop) (hN : PlainNames N)
    (hload : ∀ h, ok h → (load h).Loads (parse h) (body h))
    (hpair : ∀ a b, ok a → ok b → Updatable dom hashNode N True (parse a) (parse b) (body a) (body b))
    (calls : List (Bool × Server.Call)) (hcalls : ∀ c ∈ calls, c.2.Follows ok route)
    (S : Server) (h0 : Str) (hS : S.html route = some h0) (hok : ok h0)
    (hmiss : S.MissesNone (fun a b => diff hashNode (parse a) (parse b)) route calls)
    (hsize : ∀ h, ok h → (parse h).size ≤ 2 ^ 29)
    (hbytes : ∀ e ∈ sent (fun a b => diff hashNode (parse a) (parse b)) route S calls,
      (writeEvent e).length < 2 ^ 32) :
    ∃ S' p, byteRun dom (fun a b => diff hashNode (parse a) (parse b)) load route S (load h0) calls = (S', p) ∧
      S' = S.runAll (fun a b => diff hashNode (parse a) (parse b)) (calls.map Prod.snd) ∧
      ∀ h, S'.html route = some h → (p.arena.tree p.body).inner = (parse h).toBodyHtml := by
  obtain ⟨S', p, e1, e2, e3⟩ := C49_reconnect_partial dom parse body load route ok hN hload hpair calls hcalls S h0 hS
    hok hmiss
  refine ⟨S', p, ?_, e2, e3⟩
  rw [C81_session dom _ load route calls S (load h0) fun e he => ⟨hbytes e he, ?_⟩]
  · exact Server.keepRun_eq dom _ load route calls S (load h0) e1
  · rintro r ps rfl
    obtain ⟨a, b, ha, hb, hd⟩ := sent_from _ route ok calls S hcalls
      (fun h hh => by rw [hS] at hh; cases hh; exact hok) r ps he
    have hu := hpair a b ha hb
    have h1 := hsize a ha
    have h2 := hsize b hb
    exact C66_bodies_fit_u32 hu.comparable hu.noCollision (by omega) hd

/-! ### Cases that meet the hypotheses -/

/-- One patch of each kind, with a text that is not ASCII, a number of three bytes, a name with a prefix, and content
that is nested. -/
def exPatches : List Patch :=
  [.insertElement [0, 70000] "ul".toList [(⟨some "xlink".toList, "x".toList, "href".toList⟩, "#é".toList)]
      [.element "li".toList [] [.text "a€".toList, .element "b".toList [] []], .comment "c".toList] (some 300),
    .insertText [0, 1] "t".toList none, .insertComment [0, 2] "𝄞".toList (some 0), .remove [1, 0],
    .setText [0, 3, 128] [], .setAttribute [0, 1] ⟨none, [], "id".toList⟩ "v".toList,
    .removeAttribute [0, 1] ⟨none, [], "class".toList⟩, .move [2] [0, 0, 1] (some 4294967295),
    .updateProps [0, 1] [⟨.text, some "n".toList⟩, ⟨.attr ⟨none, [], "a".toList⟩, none⟩],
    .opaqueChanged [0, 5] "<p></p>".toList]

theorem exPatches_u32 : exPatches.map Patch.u32 = exPatches := by rfl

/-- The hypotheses hold for them; the message has 145 bytes. -/
example : exPatches.map Patch.u32 = exPatches ∧ (writePatches exPatches).length = 145 ∧
    Sendable (.patches "/a".toList exPatches) :=
  ⟨exPatches_u32, by decide +kernel, by decide +kernel, by rintro _ _ ⟨⟩; exact exPatches_u32⟩

/-- The bytes of a small event, and a part of them that is rejected. -/
example : writeEvent (.patches "é".toList [.remove [0, 200]]) = [1, 2, 195, 169, 6, 1, 3, 2, 0, 200, 1] ∧
    readEvent [1, 2, 195, 169, 6, 1, 3, 2, 0, 200] = none ∧ (readPatches [1, 3, 2, 0, 200]).isNone = true ∧
    readEvent [1, 2, 195, 169, 6, 1, 3, 2, 0, 200, 1] = some (.patches "é".toList [1, 3, 2, 0, 200, 1]) := by
  decide +kernel

/-- The hypotheses of `C81_diff_arrives` hold for two documents. -/
example : (Document.ofForest ex1).Sound ∧ (Document.ofForest ex2).Sound ∧ (Document.ofForest ex2).NoEmptyPrefix ∧
    (Document.ofForest ex1).arena.next + (Document.ofForest ex2).arena.next ≤ 2 ^ 30 ∧
    (match diff Shape.node (.ofForest ex1) (.ofForest ex2) with
      | .ok ps => decide (0 < ps.length ∧ (writePatches ps).length < 110)
      | .error _ => false) = true := by
  refine ⟨(ofForest_spec ex1 (by decide +kernel)).1, (ofForest_spec ex2 (by decide +kernel)).1, ?_, by decide +kernel,
    by decide +kernel⟩
  intro n tag attrs h
  by_cases hn : n < 20
  · have hall : ((List.range 20).all fun n => match ((Document.ofForest ex2).arena.data n).kind with
      | .element _ attrs => attrs.all fun kv => decide (kv.1.prefix_ ≠ some [])
      | _ => true) = true := by decide +kernel
    have := List.all_eq_true.1 hall n (List.mem_range.2 hn)
    rw [h] at this
    exact fun kv hkv => of_decide_eq_true (List.all_eq_true.1 this kv hkv)
  · obtain ⟨m, rfl⟩ : ∃ m, n = m + 20 := ⟨n - 20, by omega⟩
    cases h

/-- A session in which a client gets patches as bytes; its messages are short. The other hypotheses of
`C49_reconnect_bytes_partial` are those of `C49_reconnect_partial`. -/
example : (let diffHtml := fun a b => diff Shape.node (toyParse ex1 ex2 a) (toyParse ex1 ex2 b)
    let S := (Server.new.cacheHtml ['r'] ['a']).1
    let calls := [(false, Server.Call.diffRoute ['s'] ['b']), (true, .diffRoute ['r'] ['b']),
      (true, .diffRouteWithHead ['r'] ['a'] [])]
    decide ((sent diffHtml ['r'] S calls).length = 2 ∧
      (∀ b ∈ (sent diffHtml ['r'] S calls).map writeEvent, b.length < 110) ∧
      (toyParse ex1 ex2 ['a']).size ≤ 2 ^ 29 ∧ (toyParse ex1 ex2 ['b']).size ≤ 2 ^ 29)) = true := by
  decide +kernel

end Hotmeal.Postcard
