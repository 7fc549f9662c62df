import Verif.Model.Ssh
import Verif.Model.Time

/-!
# What the ssh helpers should compute

The POSIX permission check, and what the stat command of GNU coreutils prints for the format
`%n  %i  %o  %s  %w  %W  %x  %X  %y  %Y  %z  %Z  %g  %u  %f`.  Only the types `Mode`, `Stat`,
`StatResult` and the printing of numbers (`natStr`, `pad`, `hexChar`) are shared with the model.
-/

namespace Verif.Ssh.Spec

open Verif.Ssh

/-- The bit of a permission triple (`rwx`) that a mode asks for. -/
def bit : Mode → Option Nat
  | .read => some 2
  | .write => some 1
  | .execute => some 0
  | .other => none

/-- The POSIX check.  The superuser may read and write anything and execute what anybody may
execute; everybody else is judged by exactly one of the three triples: the owner's if they own the
file, else the group's if they are in the group, else the others'. -/
def Granted (mode uid gid me : Nat) (gids : List Nat) (m : Mode) : Prop :=
  ∃ b, bit m = some b ∧
    (if me = 0 then b ≠ 0 ∨ mode.testBit 0 ∨ mode.testBit 3 ∨ mode.testBit 6
     else if uid = me then mode.testBit (6 + b)
     else if gid ∈ gids then mode.testBit (3 + b)
     else mode.testBit b)

/-- The triples are ordered: whatever others may do the group may do, and whatever the group may do
the owner may do. -/
def Ordered (mode : Nat) : Prop :=
  ∀ b, b < 3 → (mode.testBit b → mode.testBit (3 + b)) ∧ (mode.testBit (3 + b) → mode.testBit (6 + b))

/-- A point in time as the stat command knows it: whole seconds since the epoch, rounded down, and
nanoseconds, with the texts for the day, the time of day and the zone. -/
structure Moment where
  sec : Int
  nsec : Nat
  day : Str
  tod : Str
  zone : Str
  deriving DecidableEq

def Moment.ok (t : Moment) : Prop :=
  t.nsec < 10 ^ 9 ∧ ' ' ∉ t.day ∧ ' ' ∉ t.tod ∧ '.' ∉ t.tod ∧ ' ' ∉ t.zone ∧ t.zone ≠ []

/-- `%x`, `%y`, `%z` and `%w` -/
def Moment.human (t : Moment) : Str := t.day ++ ' ' :: (t.tod ++ '.' :: pad 9 t.nsec) ++ ' ' :: t.zone

/-- `%X` and friends -/
def Moment.secs (t : Moment) : Str := intStr t.sec

/-- The exact value in nanoseconds. -/
def Moment.value (t : Moment) : Dec := ⟨t.sec * 10 ^ 9 + t.nsec, 9⟩

/-- Lower case hexadecimal, no leading zeros: `%f`. -/
def natHex (n : Nat) : Str := if n < 16 then [hexChar n] else natHex (n / 16) ++ [hexChar (n % 16)]

/-- What there is to print about a file. -/
structure File where
  name : Str
  ino : Nat
  blksize : Nat
  size : Nat
  birth : Option Moment
  access : Moment
  modified : Moment
  changed : Moment
  gid : Nat
  uid : Nat
  mode : Nat

/-- The texts of the fields. -/
def File.fields (f : File) : List Str :=
  [f.name, natStr f.ino, natStr f.blksize, natStr f.size,
    (match f.birth with | none => ['-'] | some t => t.human),
    (match f.birth with | none => ['0'] | some t => t.secs),
    f.access.human, f.access.secs, f.modified.human, f.modified.secs, f.changed.human, f.changed.secs,
    natStr f.gid, natStr f.uid, natHex f.mode]

/-- Texts with two spaces between them. -/
def spaced : List Str → Str
  | [] => []
  | [w] => w
  | w :: ws => w ++ [' ', ' '] ++ spaced ws

/-- The output of the stat command. -/
def File.print (f : File) : Str := spaced f.fields

/-- What should be read back. -/
def File.result (f : File) : StatResult :=
  ⟨f.name, f.ino, f.blksize, f.size, f.access.value, f.modified.value, f.changed.value, f.gid, f.uid,
    f.mode, f.birth.map Moment.value⟩

/-- The texts for the times are as the command prints them, and the mode has a file type in it and
fits in sixteen bits. -/
def File.ok (f : File) : Prop :=
  f.access.ok ∧ f.modified.ok ∧ f.changed.ok ∧ (∀ t, f.birth = some t → t.ok) ∧
    0x1000 ≤ f.mode ∧ f.mode < 0x10000

/-- The times are not before 1970, and the file was not born in the first second of it. -/
def File.modern (f : File) : Prop :=
  0 ≤ f.access.sec ∧ 0 ≤ f.modified.sec ∧ 0 ≤ f.changed.sec ∧ ∀ t, f.birth = some t → 0 < t.sec

/-- No two spaces in a row, and no space at the end. -/
def NoGap (s : Str) : Prop := ¬ [' ', ' '] <:+: s ∧ s.getLast? ≠ some ' '

end Verif.Ssh.Spec
