import Verif.Lemmas.Decide
import Verif.Model.Access
import Verif.Props.Ssh

/-!
# C118: asking whether a path may be used
-/

namespace Verif.Access
open Ssh (Mode)

/-- The numbers that POSIX gives the permissions (`unistd.h`), which are the values of the bits of a permission triple as well. -/
inductive IsNumber : Mode → Int → Prop
  | read : IsNumber .read 4
  | write : IsNumber .write 2
  | execute : IsNumber .execute 1

/-- The words for the permissions. -/
inductive IsWord : Mode → Str → Prop
  | read : IsWord .read (lit "read")
  | write : IsWord .write (lit "write")
  | execute : IsWord .execute (lit "execute")

/-- The argument is the number or the word for exactly this permission. -/
inductive Means : Asked → Mode → Prop
  | number {m n} : IsNumber m n → Means (.number n) m
  | text {m s} : IsWord m s → Means (.text s) m

theorem means_iff (a : Asked) (m : Mode) : Means a m ↔ remoteMode a = m ∧ m ≠ .other := by
  constructor
  · rintro (⟨⟨⟩⟩ | ⟨⟨⟩⟩) <;> exact ⟨by decide, by decide⟩
  · rintro ⟨rfl, h⟩
    cases a with
    | number n =>
      unfold remoteMode at h ⊢
      dsimp only at h ⊢
      split
      · subst_vars; exact .number .read
      · split
        · subst_vars; exact .number .write
        · split
          · subst_vars; exact .number .execute
          · rename_i h1 h2 h3; simp [h1, h2, h3] at h
    | text s =>
      unfold remoteMode at h ⊢
      dsimp only at h ⊢
      split
      · subst_vars; exact .text .read
      · split
        · subst_vars; exact .text .write
        · split
          · subst_vars; exact .text .execute
          · rename_i h1 h2 h3; simp [h1, h2, h3] at h
    | other => exact absurd rfl h

/-- **Every argument means at most one permission.** -/
theorem C118_unique (a : Asked) (m m' : Mode) (h : Means a m) (h' : Means a m') : m = m' :=
  ((means_iff a m).1 h).1.symm.trans ((means_iff a m').1 h').1

/-- **The system is asked once, for the permission that is meant and nothing else, and its answer is given.** -/
theorem C118_local (os : Int → Bool → Bool) (a : Asked) (follow : Bool) (m : Mode) (h : Means a m) :
    ∃ n, IsNumber m n ∧ localAccess os a follow = (.ok (os n follow), [(n, follow)]) := by
  cases h with
  | number h => cases h <;> exact ⟨_, by constructor, rfl⟩
  | text h => cases h <;> exact ⟨_, by constructor, rfl⟩

/-- **For everything else it raises, and the system is not asked.** -/
theorem C118_refused (os : Int → Bool → Bool) (a : Asked) (follow : Bool) (h : ∀ m, ¬ Means a m) :
    localAccess os a follow = (.error .typeError, []) := by
  cases a with
  | number n =>
    have : ¬ (n = 4 ∨ n = 2 ∨ n = 1) := by
      rintro (rfl | rfl | rfl)
      · exact h _ (.number .read)
      · exact h _ (.number .write)
      · exact h _ (.number .execute)
    simp [localAccess, localMode, this]
  | text s =>
    have h1 : s ≠ lit "read" := fun e => h Mode.read (by rw [e]; exact .text .read)
    have h2 : s ≠ lit "write" := fun e => h Mode.write (by rw [e]; exact .text .write)
    have h3 : s ≠ lit "execute" := fun e => h Mode.execute (by rw [e]; exact .text .execute)
    simp [localAccess, localMode, h1, h2, h3]
  | other => rfl

example : Means (.number 4) .read ∧ Means (.text (lit "write")) .write ∧ (∀ m, ¬ Means (.number 0) m) ∧ (∀ m, ¬ Means (.number 6) m) ∧
    ∀ m, ¬ Means (.text (lit "rw")) m := by
  refine ⟨.number .read, .text .write, ?_, ?_, ?_⟩ <;> intro m h <;> have := (means_iff _ m).1 h <;>
    exact this.2 (this.1.symm.trans (by decide))

/-- **Remotes and local paths take the same arguments for the same permissions**: a remote that has them asked for is asked as C54 says. -/
theorem C118_remote_partial (a : Asked) (m : Mode) (h : Means a m) : remoteMode a = m := ((means_iff a m).1 h).1

/-- The claim that they do the same for the other arguments is false: a remote answers that it may not be used, whatever its permissions
are and whoever asks, also if the question is whether it is there (`os.F_OK`), where a local path raises. -/
theorem C118_remote_counterexample (os : Int → Bool → Bool) (a : Asked) (follow : Bool) (h : ∀ m, ¬ Means a m) (st : Ssh.Stat) (me : Nat)
    (gids : List Nat) :
    Ssh.access (.ok st) me gids (remoteMode a) = .ok false ∧ localAccess os a follow = (.error .typeError, []) := by
  refine ⟨?_, C118_refused os a follow h⟩
  have : remoteMode a = .other := by
    cases hm : remoteMode a with
    | other => rfl
    | _ => exact absurd ((means_iff a _).2 ⟨hm, nofun⟩) (h _)
  rw [this, Ssh.access_eq]
  rfl

end Verif.Access
