import Verif.Model.Disk

/-!
# Swapping two paths

`swap_carefree` and `swap` (`augpathlib/core.py` lines 537-588) and `swap_linux` (`augpathlib/swap.py`
lines 28-41).  A process that dies in the middle is a run in which every call from some point on fails, since
nothing changes any more.  Simplified: paths have no `..` and no symlink among their parents; the name that
`mkdtemp` invents is a parameter (it retries when the name is taken); closing a file does not fail.
-/

namespace Verif.FS

namespace Disk
variable {ν : Type} [Kinded ν]

/-- renameat2(2) with `RENAME_EXCHANGE` -/
def exchange (a b : Path) (d : Disk ν) : Except PyErr (Disk ν) :=
  match d.at_ a, d.at_ b with
  | some _, some _ =>
    if a = b then .ok d
    else if a <+: b ∨ b <+: a then .error .osError
    else .ok (d.map fun e =>
      if a <+: e.1 then (b ++ e.1.drop a.length, e.2)
      else if b <+: e.1 then (a ++ e.1.drop b.length, e.2)
      else e)
  | _, _ => .error .fileNotFoundError

end Disk

namespace Swap

/-- What a run depends on: whether the system has the exchange call, the working directory, the calls that
fail, where locations lead when symlinks are followed (nowhere if the result does not exist), the devices,
and the name that `mkdtemp` invents. -/
structure Env where
  native : Bool
  cwd : Path
  F : Nat → Option PyErr
  follow : Disk Node → Path → Option Path
  dev : Path → Nat
  tmp : Name

/-- A path, absolute or relative to the working directory. -/
structure P where
  absolute : Bool
  comps : List Name

/-- The location of a path. -/
def Env.loc (E : Env) (p : P) : Path := if p.absolute then p.comps else E.cwd ++ p.comps

/-- The location that renameat2 gets: an absolute path is what it is, but a relative one is taken to be in
the directory that the file descriptor is open on, which is the path itself (swap.py 30-37). -/
def Env.given (E : Env) (d : Disk Node) (p : P) : Except PyErr Path :=
  if p.absolute then .ok p.comps
  else match E.follow d (E.loc p) with
    | none => .error .fileNotFoundError
    | some m => match d.at_ m with
      | some (.dir _) => .ok (m ++ p.comps)
      | _ => .error .notADirectoryError

/-- `os.open(path, 0)` -/
def Env.open_ (E : Env) (p : P) : Prog Node Unit :=
  .look E.F fun d => match E.follow d (E.loc p) with
    | some _ => .ok ()
    | none => .error .fileNotFoundError

/-- `swap_linux` (swap.py 28-41).  The call returns -1 for every error, which makes an `OSError` of no particular kind. -/
def Env.swapLinux (E : Env) (a b : P) : Prog Node Unit :=
  .bind (E.open_ a) fun _ => .bind (E.open_ b) fun _ => .catch_ (.act E.F fun d =>
    match E.given d a, E.given d b with
    | .ok x, .ok y => d.exchange x y
    | .error e, _ => .error e
    | _, .error e => .error e) fun _ => .throw .osError

/-- `swap` (core.py 565-588) -/
def Env.swap (E : Env) (a b : P) : Prog Node Unit :=
  .bind (.look E.F fun d => .ok (E.follow d (E.loc a))) fun sa =>
  .bind (.look E.F fun d => .ok (E.follow d (E.loc b))) fun sb =>
    match sa, sb with
    | none, _ => .throw .fileNotFoundError
    | some _, none => .throw .fileNotFoundError
    | some x, some y =>
      if E.dev x ≠ E.dev y then .throw .valueError
      else if E.native then E.swapLinux a b
      else .throw .notImplementedError

/-- The temporary directory: `mkdtemp(dir=target.parent)` -/
def Env.temp (E : Env) (b : Path) : Path := b.dropLast ++ [E.tmp]

/-- The steps without the exchange call (core.py 549-558) -/
def Env.byHand (E : Env) (a b : Path) : Prog Node Unit :=
  .bind (.act E.F fun d => d.create (E.temp b) (.dir true)) fun _ =>
  .bind (.act E.F fun d => d.rename b (E.temp b ++ b.getLast?.toList)) fun _ =>
  .bind (.act E.F fun d => d.rename a b) fun _ =>
  .bind (.act E.F fun d => d.rename (E.temp b ++ b.getLast?.toList) a) fun _ =>
  .act E.F fun d => d.rmdir (E.temp b)

/-- `swap_carefree` (core.py 537-558) -/
def Env.swapCarefree (E : Env) (a b : P) : Prog Node Unit :=
  .catch_ (E.swap a b) fun _ => E.byHand (E.loc a) (E.loc b)

end Swap
end Verif.FS
