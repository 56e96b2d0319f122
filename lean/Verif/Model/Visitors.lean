import Verif.Model.Client

/-!
# Several browsers with one route open (hotmeal-server/src/lib.rs)

`LiveReloadServer` is used by an application that serves pages: it calls `cache_html` when it serves a page (doc
comment, lib.rs:105) and one of the diff functions when content changes, and sends the event to every browser that
has the route open.
-/

namespace Hotmeal
namespace Server

/-- What can happen: a browser asks for the page and gets `html`, or the application calls the server.
hotmeal-server/src/lib.rs:105-107 for the visit, lib.rs:98-222 for the calls. -/
inductive Happening
  | visit (html : Str)
  | call (c : Call)

/-- The event of a call reaches all browsers. An error of one of them is returned.
Left to the caller by hotmeal-server/src/lib.rs:84-89. -/
def broadcast {E : Type} (dom : WebDom) (diffHtml : Str → Str → Except E (List Patch)) (load : Str → Page)
    (route : Str) (S : Server) (c : Call) : List Page → Res (List Page)
  | [] => .ok []
  | p :: ps => do
    let (_, p) ← S.liveStep dom diffHtml load route p c
    let ps ← broadcast dom diffHtml load route S c ps
    .ok (p :: ps)

/-- A sequence of visits and calls. The pages are listed in the order of the visits.
Iterates `cache_html` (lib.rs:105-108) and `broadcast`. -/
def visitRun {E : Type} (dom : WebDom) (diffHtml : Str → Str → Except E (List Patch)) (load : Str → Page)
    (route : Str) (S : Server) (ps : List Page) : List Happening → Res (Server × List Page)
  | [] => .ok (S, ps)
  | .visit html :: hs => visitRun dom diffHtml load route (S.cacheHtml route html).1 (ps ++ [load html]) hs
  | .call c :: hs => do
    let ps ← S.broadcast dom diffHtml load route c ps
    visitRun dom diffHtml load route (S.run diffHtml c).1 ps hs

end Server
end Hotmeal
