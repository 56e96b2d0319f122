import Verif.Model.Server
import Verif.Model.WebDom
import Verif.Model.Wire

/-!
# Server and browser client together (hotmeal-server/src/lib.rs, hotmeal-wasm/src/lib.rs)
-/

namespace Hotmeal

/-- A page shown by the browser: its DOM and the body element. The mount point is the body
(`resolve_mount_point` with the selector `"body"`, hotmeal-wasm/src/lib.rs:332-339). -/
structure Page where
  arena : Arena NodeData
  body : Nat

namespace Page

/-- `handle_live_reload_event`, hotmeal-wasm/src/lib.rs:208-235. `fresh` is the page that a reload
gives. As in the code, the route in the event is not looked at. Of the encoding of the event
(`to_postcard`, hotmeal-server/src/lib.rs:69-79 and 150-175) only the conversion of names is in this
definition (`Patch.wire`); `Model/Postcard` has the bytes.
An error is only logged by the code (lib.rs:201-205) and leaves the page partly patched; here it is
returned. -/
def handle (dom : WebDom) (fresh : Page) (p : Page) : Event → Res Page
  | .reload => .ok fresh
  | .headChanged _ => .ok fresh
  | .patches _ ps => do
    let A ← dom.applyPatches p.body p.arena (ps.map Patch.wire)
    .ok { p with arena := A }

/-- No event: the page stays. `diff_route` returns an `Option`, hotmeal-server/src/lib.rs:122. -/
def deliver (dom : WebDom) (fresh : Page) (p : Page) : Option Event → Res Page
  | none => .ok p
  | some e => handle dom fresh p e

end Page

namespace Server

/-- The route that a call is about. Argument `route` at hotmeal-server/src/lib.rs:106-211. -/
def Call.route : Call → Option Str
  | .cacheHtml r _ => some r
  | .cacheHead r _ => some r
  | .diffRoute r _ => some r
  | .diffRouteWithHead r _ _ => some r
  | .removeRoute r => some r
  | .clear => none

/-- One call to the server, seen by a client of `route`: the event of a call about the client's route
is delivered to the client (what the doc comment of `LiveReloadServer` leaves to the caller,
hotmeal-server/src/lib.rs:84-89). On a reload the browser gets the HTML that the server has
cached for the route. `load` is the page that the browser builds from HTML. -/
def liveStep {E : Type} (dom : WebDom) (diffHtml : Str → Str → Except E (List Patch)) (load : Str → Page)
    (route : Str) (S : Server) (p : Page) (c : Call) : Res (Server × Page) :=
  let (S, ev) := S.run diffHtml c
  if c.route = some route then do
    let p ← Page.deliver dom (((S.html route).map load).getD p) p ev
    .ok (S, p)
  else .ok (S, p)

/-- A sequence of calls, seen by a client.
Iterates `liveStep`; the loop is that of the session, hotmeal-wasm/src/lib.rs:254-330. -/
def liveRun {E : Type} (dom : WebDom) (diffHtml : Str → Str → Except E (List Patch)) (load : Str → Page)
    (route : Str) (S : Server) (p : Page) : List Call → Res (Server × Page)
  | [] => .ok (S, p)
  | c :: cs => do
    let (S, p) ← S.liveStep dom diffHtml load route p c
    liveRun dom diffHtml load route S p cs

/-- A sequence of calls, seen by a client that is connected during some of them only. After a
connection is lost, `live_reload_loop` and `live_reload_session` (hotmeal-wasm/src/lib.rs:254-320)
connect again and subscribe to the route; the page is left as it is. An event reaches the client only
if it is connected at that time. -/
def connRun {E : Type} (dom : WebDom) (diffHtml : Str → Str → Except E (List Patch)) (load : Str → Page)
    (route : Str) (S : Server) (p : Page) : List (Bool × Call) → Res (Server × Page)
  | [] => .ok (S, p)
  | (true, c) :: cs => do
    let (S, p) ← S.liveStep dom diffHtml load route p c
    connRun dom diffHtml load route S p cs
  | (false, c) :: cs => connRun dom diffHtml load route (S.run diffHtml c).1 p cs

end Server
end Hotmeal
