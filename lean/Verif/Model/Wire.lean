import Verif.Model.Rpc

/-!
# Model of the streams: how messages are written and read

Streams are taken as characters; the newline is the same in UTF-8.
-/

namespace Ced

/-- server.rs:60-67 `write_client`, remote/src/client.rs:31-37 and clients.rs:38-39: a message and a newline. -/
def frame (message : Json) : Str := message.write ++ ['\n']

/-- `futures_lite::io::Lines` (server.rs:146, client.rs:44, clients.rs:67): lines end with a newline, which is removed
together with one carriage return before it; what follows the last newline is a line unless it is empty. -/
def readLinesFrom (acc : Str) : Str → List Str
  | [] => if acc = [] then [] else [acc]
  | c :: s =>
    if c = '\n' then (if acc.getLast? = some '\r' then acc.dropLast else acc) :: readLinesFrom [] s
    else readLinesFrom (acc ++ [c]) s

/-- The lines of a stream. -/
def readLines (s : Str) : List Str := readLinesFrom [] s

/-- clients.rs:80-86: what the stdio client writes for the messages it gets; there is no newline. -/
def stdioOutput (events : List ClientEvent) : Str := events.flatMap fun e => e.encode.write

end Ced
