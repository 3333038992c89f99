import Verif.Model.Wire

/-!
# Model of the client that relays between its standard streams and a session

`core/src/clients.rs:48-90` (`StdioClient`) with `remote/src/client.rs:25-46` (`Client::run`).  Three tasks run in any
order: one reads the standard input, one writes requests to the session, one prints what the session sends.
-/

namespace Ced

/-- clients.rs:48-51, client.rs:14-17, 27-30: the requests in the channel, what was written to the session, and what was
printed.  The channel has no bound. -/
structure Relay where
  channel : List Request
  socket : Str
  stdout : Str
deriving DecidableEq, Repr

/-- One round of one of the tasks. -/
inductive RelayStep where
  /-- an item of the standard input: a line, or an error -/
  | input (item : Option Str)
  /-- the next request is written, if the stream accepts it -/
  | send (writable : Bool)
  /-- an item of the stream of the session: a line, or an error -/
  | event (item : Option Str)
deriving DecidableEq, Repr

namespace Relay

/-- clients.rs:54-57 `new`. -/
def start : Relay := ⟨[], [], []⟩

/-- clients.rs:66-79, client.rs:31-37, 38-42, clients.rs:82-87: `parse` is `serde_json::from_str` as a value.
What is only logged is left out.  An error while reading from the session is a panic (`expect("parse line")`); an error
while writing to it is ignored. -/
def step (parse : Str → Option Json) (r : Relay) : RelayStep → R Relay
  | .input (some line) =>
    match (parse line).bind Request.decode with
    | some q => .ok { r with channel := r.channel ++ [q] }
    | none => .ok r
  | .input none => .ok r
  | .send writable =>
    match r.channel with
    | [] => .ok r
    | q :: rest => .ok { r with channel := rest, socket := if writable then r.socket ++ frame q.encode else r.socket }
  | .event (some line) =>
    match (parse line).bind ClientEvent.decode with
    | some e => .ok { r with stdout := r.stdout ++ stdioOutput [e] }
    | none => .ok r
  | .event none => .error .unwrap

/-- Several rounds. -/
def run (parse : Str → Option Json) (r : Relay) (steps : List RelayStep) : R Relay := steps.foldlM (step parse) r

end Relay
end Ced
