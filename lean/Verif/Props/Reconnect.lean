import Verif.Props.Live

set_option autoImplicit false
set_option linter.unusedSectionVars false

/-!
# C49: clients that lose their connection
-/

namespace Hotmeal

open Server

variable {H : Type} [DecidableEq H] {hashNode : HKind → Option Str → List H → H} {N : QualName → Prop}

/-- No call that the client misses changes the HTML cached for the route. -/
def Server.MissesNone {E : Type} (diffHtml : Str → Str → Except E (List Patch)) (route : Str) (S : Server) :
    List (Bool × Call) → Prop
  | [] => True
  | (on, c) :: cs => (on = true ∨ (S.run diffHtml c).1.html route = S.html route) ∧
    Server.MissesNone diffHtml route (S.run diffHtml c).1 cs

theorem Server.conn_invariant {φ : List Html → List Html} (dom : WebDom)
    (parse : Str → Document) (body : Str → Nat) (load : Str → Page) (route : Str) (ok : Str → Prop)
    (hN : PlainNames N) (hload : ∀ h, ok h → (load h).Loads (parse h) (body h))
    (hpair : ∀ a b, ok a → ok b → Updatable dom hashNode N True (parse a) (parse b) (body a) (body b)) :
    ∀ (calls : List (Bool × Call)) (S : Server) (p : Page), (∀ c ∈ calls, c.2.Follows ok route) →
      S.MissesNone (fun a b => diff hashNode (parse a) (parse b)) route calls →
      (∀ h, S.html route = some h → ok h ∧ p.Shows N φ (parse h) (body h)) →
      ∃ S' p', S.connRun dom (fun a b => diff hashNode (parse a) (parse b)) load route p calls =
          .ok (S', p') ∧
        S' = S.runAll (fun a b => diff hashNode (parse a) (parse b)) (calls.map Prod.snd) ∧
        ∀ h, S'.html route = some h → ok h ∧ p'.Shows N φ (parse h) (body h) := by
  intro calls
  induction calls with
  | nil => intro S p _ _ hinv; exact ⟨S, p, rfl, rfl, hinv⟩
  | cons x cs ih =>
    obtain ⟨on, c⟩ := x
    intro S p hcs hm hinv
    cases on with
    | true =>
      rcases Server.live_step (φ := φ) dom parse body load route ok hN hload hpair (.inl trivial) S p c
        (hcs (true, c) (by simp)) hinv with ⟨p', e1, hinv'⟩ | ⟨hs, _⟩
      · obtain ⟨S', p'', e2, e3, e4⟩ := ih _ p' (fun c hc => hcs c (by simp [hc])) hm.2 hinv'
        exact ⟨S', p'', by simp only [connRun, e1, bind, Except.bind, e2], by rw [e3]; rfl, e4⟩
      · exact absurd trivial hs
    | false =>
      have hsame := hm.1.resolve_left (by simp)
      obtain ⟨S', p'', e2, e3, e4⟩ := ih _ p (fun c hc => hcs c (by simp [hc])) hm.2
        (fun h hh => hinv h (by rw [← hsame]; exact hh))
      exact ⟨S', p'', by simp only [connRun, e2], by rw [e3]; rfl, e4⟩

/-- **C49**, partial: a client that loaded the cached HTML of its route, loses its connection and
reconnects any number of times, and misses no call that changes the HTML of the route, shows what is
cached. Missing: missed updates, after which this fails (`C49_violated`) until the page is reloaded
(`C49_reload_heals_partial`), and what is missing from `C28_client_converges_partial`. -/
theorem C49_reconnect_partial (dom : WebDom) (parse : Str → Document) (body : Str → Nat)
    (load : Str → Page) (route : Str) (ok : Str → Prop) (hN : PlainNames N)
    (hload : ∀ h, ok h → (load h).Loads (parse h) (body h))
    (hpair : ∀ a b, ok a → ok b → Updatable dom hashNode N True (parse a) (parse b) (body a) (body b))
    (calls : List (Bool × Call)) (hcalls : ∀ c ∈ calls, c.2.Follows ok route)
    (S : Server) (h0 : Str) (hS : S.html route = some h0) (hok : ok h0)
    (hmiss : S.MissesNone (fun a b => diff hashNode (parse a) (parse b)) route calls) :
    ∃ S' p, S.connRun dom (fun a b => diff hashNode (parse a) (parse b)) load route (load h0) calls =
        .ok (S', p) ∧
      S' = S.runAll (fun a b => diff hashNode (parse a) (parse b)) (calls.map Prod.snd) ∧
      ∀ h, S'.html route = some h → (p.arena.tree p.body).inner = (parse h).toBodyHtml := by
  obtain ⟨S', p, e1, e2, e3⟩ := Server.conn_invariant (φ := Html.pruneL) dom parse body load route ok hN
    hload hpair calls S (load h0) hcalls hmiss (by
      intro h hh
      rw [hS] at hh; cases hh
      exact ⟨hok, (hload h0 hok).shows (hpair _ _ hok hok).comparable.old
        (hpair _ _ hok hok).names.1 _⟩)
  refine ⟨S', p, e1, e2, fun h hh => ?_⟩
  obtain ⟨h1, h2⟩ := e3 h hh
  have hu := hpair h h h1 h1
  exact h2.1.html hu.comparable.old (hu.comparable.body_clear hu.noCollision hu.opaqueAgree)

/-- **C49**, partial: whatever page the client shows, once a call about its route gives the event Reload
or HeadChanged, the client shows what is cached, and goes on to do so. Missing: as above. -/
theorem C49_reload_heals_partial (dom : WebDom) (parse : Str → Document) (body : Str → Nat)
    (load : Str → Page) (route : Str) (ok : Str → Prop) (hN : PlainNames N)
    (hload : ∀ h, ok h → (load h).Loads (parse h) (body h))
    (hpair : ∀ a b, ok a → ok b → Updatable dom hashNode N True (parse a) (parse b) (body a) (body b))
    (c : Call) (calls : List (Bool × Call)) (hc : c.Follows ok route)
    (hcalls : ∀ c ∈ calls, c.2.Follows ok route) (S : Server) (p : Page)
    (hev : (S.run (fun a b => diff hashNode (parse a) (parse b)) c).2 = some .reload ∨
      (S.run (fun a b => diff hashNode (parse a) (parse b)) c).2 = some (.headChanged route))
    (hr : c.route = some route)
    (hmiss : (S.run (fun a b => diff hashNode (parse a) (parse b)) c).1.MissesNone
      (fun a b => diff hashNode (parse a) (parse b)) route calls) :
    ∃ S' p', S.connRun dom (fun a b => diff hashNode (parse a) (parse b)) load route p
        ((true, c) :: calls) = .ok (S', p') ∧
      S' = S.runAll (fun a b => diff hashNode (parse a) (parse b)) (c :: calls.map Prod.snd) ∧
      ∀ h, S'.html route = some h → (p'.arena.tree p'.body).inner = (parse h).toBodyHtml := by
  -- the call has cached new HTML
  obtain ⟨h', hok, hh'⟩ : ∃ h', ok h' ∧
      (S.run (fun a b => diff hashNode (parse a) (parse b)) c).1.html route = some h' := by
    have hd : ∀ (S : Server) h', (S.diffRoute (fun a b => diff hashNode (parse a) (parse b)) route
        h').1.html route = some h' := by
      intro S h'
      unfold Server.diffRoute
      cases e : S.html route with
      | none => simp [Server.put]
      | some old =>
        simp only
        split
        · next he => rw [← he]; exact e
        · split
          · split <;> simp [Server.put]
          · simp [Server.put]
    cases c with
    | diffRoute r h' =>
      simp only [Call.route, Option.some.injEq] at hr
      subst hr
      exact ⟨h', hc rfl, hd S h'⟩
    | diffRouteWithHead r h' i =>
      simp only [Call.route, Option.some.injEq] at hr
      subst hr
      refine ⟨h', hc rfl, ?_⟩
      simp only [Server.run, Server.diffRouteWithHead]
      split
      · simp [Server.put]
      · exact hd _ h'
    | _ => simp [Server.run] at hev
  have hstep : S.liveStep dom (fun a b => diff hashNode (parse a) (parse b)) load route p c =
      .ok ((S.run (fun a b => diff hashNode (parse a) (parse b)) c).1, load h') := by
    unfold Server.liveStep
    generalize S.run (fun a b => diff hashNode (parse a) (parse b)) c = r at hev hh'
    obtain ⟨S1, ev⟩ := r
    simp only at hev hh' ⊢
    rw [if_pos hr, hh']
    rcases hev with rfl | rfl <;> rfl
  obtain ⟨S', p', e1, e2, e3⟩ := Server.conn_invariant (φ := Html.pruneL) dom parse body load route ok hN
    hload hpair calls _ (load h') hcalls hmiss (by
      intro h hh
      rw [hh'] at hh; cases hh
      exact ⟨hok, (hload _ hok).shows (hpair _ _ hok hok).comparable.old
        (hpair _ _ hok hok).names.1 _⟩)
  refine ⟨S', p', by simp only [connRun, hstep, bind, Except.bind, e1], by rw [e2]; rfl, fun h hh => ?_⟩
  obtain ⟨h1, h2⟩ := e3 h hh
  have hu := hpair h h h1 h1
  exact h2.1.html hu.comparable.old (hu.comparable.body_clear hu.noCollision hu.opaqueAgree)

/-- **C49** is violated: the client misses the update from `<h></h><u></u><v></v><w></w>` to
`<u></u><v></v><w></w>` and is connected again for the update back. It applies the patches of the
latter to the wrong page, without any error, and shows neither. -/
theorem C49_violated : ∃ cs ds : List Html, Html.plainL cs = true ∧ Html.plainL ds = true ∧
    (∀ a b, NoMoveBelowSelf Shape.node (toyParse cs ds a) (toyParse cs ds b) 2 2) ∧
    (match (Server.new.cacheHtml ['r'] ['a']).1.connRun WebDom.lenient
        (fun a b => diff Shape.node (toyParse cs ds a) (toyParse cs ds b)) (toyLoad cs ds) ['r']
        (toyLoad cs ds ['a']) [(false, .diffRoute ['r'] ['b']), (true, .diffRoute ['r'] ['a'])] with
      | .ok (S, p) => decide (S.html ['r'] = some ['a'] ∧
          (toyParse cs ds ['a']).toBodyHtml = "<h></h><u></u><v></v><w></w>".toList ∧
          (p.arena.tree p.body).inner = "<h></h><h></h><u></u><v></v>".toList)
      | .error _ => false) = true :=
  ⟨[ex "h" [] [], ex "u" [] [], ex "v" [] [], ex "w" [] []], [ex "u" [] [], ex "v" [] [], ex "w" [] []],
    by decide +kernel, by decide +kernel, by
      intro a b
      unfold toyParse
      split <;> split <;> exact noMoveBelowSelf_of_movesSafe (by decide +kernel), by decide +kernel⟩

/-- The hypotheses on calls of the C49 theorems hold for a client that misses a call about another route
and one that does not change anything, and then gets patches; `Updatable` and `Page.Loads` are as in
the example for `C28_client_converges_partial`. -/
example : (Server.new.cacheHtml ['r'] ['a']).1.MissesNone
      (fun a b => diff Shape.node (toyParse ex1 ex2 a) (toyParse ex1 ex2 b)) ['r']
      [(false, .diffRoute ['s'] ['b']), (false, .diffRoute ['r'] ['a']), (true, .diffRoute ['r'] ['b'])] ∧
    ((Server.new.cacheHtml ['r'] ['a']).1.run
      (fun a b => diff Shape.node (toyParse ex1 ex2 a) (toyParse ex1 ex2 b))
      (.diffRouteWithHead ['r'] ['b'] ['i'])).2 = some (.headChanged ['r']) := by
  constructor
  · simp only [MissesNone]
    decide +kernel
  · rfl

end Hotmeal
