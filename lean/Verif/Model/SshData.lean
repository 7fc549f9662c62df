import Verif.Model.Data

/-!
# The data of an ssh remote

`SshRemote.data` (`augpathlib/remotes.py` lines 847-858) and `SshCache.data` (`augpathlib/caches.py` lines 1493-1495): a process
`ssh host cat path` and what is read from it.

Simplified: the process writes without waiting for its reader; what it prints on its error output is not read by the code and left out.
-/

namespace Verif.Data

/-- One run of the process: whether there is a program `ssh`, what came out, and the exit status. -/
structure Run where
  started : Bool
  out : Bytes
  status : Nat
  deriving DecidableEq, Repr

/-- What is read at a time (remotes.py 852). -/
def sshChunk : Nat := 4096

/-- Where the generator is: not started, suspended after a chunk with this much unread, done after `communicate`, closed while
it was suspended (the process is left alone), or ended with the exception of `Popen`. -/
inductive Pipe where
  | fresh
  | open_ (rest : Bytes)
  | done
  | left
  | failed (e : PyErr)
  deriving DecidableEq, Repr

/-- `next(generator)` (remotes.py 848-858): the value that is yielded, if any.  The status of the process is asked by nobody. -/
def Pipe.next (r : Run) : Pipe → Option Bytes × Pipe
  | .fresh =>
    if r.started then
      let d := r.out.take sshChunk
      if d = [] then (none, .done) else (some d, .open_ (r.out.drop sshChunk))
    else (none, .failed .fileNotFoundError)
  | .open_ rest =>
    let d := rest.take sshChunk
    if d = [] then (none, .done) else (some d, .open_ (rest.drop sshChunk))
  | p => (none, p)

/-- `generator.close()`: a suspended generator ends where it is, without `communicate`. -/
def Pipe.close : Pipe → Pipe
  | .fresh => .done
  | .open_ _ => .left
  | p => p

/-- At most `k` values asked for, one after the other. -/
def Pipe.take (r : Run) : Nat → Pipe → List Bytes × Pipe
  | 0, p => ([], p)
  | k + 1, p =>
    match p.next r with
    | (none, p) => ([], p)
    | (some d, p) => let (ds, p) := Pipe.take r k p; (d :: ds, p)

/-- Has somebody waited for the process to end?  (remotes.py 858) -/
def Pipe.waited : Pipe → Bool
  | .done => true
  | _ => false

/-- The whole stream, as the data setters take it. -/
def sshStream (r : Run) : Stream :=
  if r.started then ⟨dataChunks sshChunk r.out, none⟩ else ⟨[], some .fileNotFoundError⟩

end Verif.Data
