import Verif.Model.SysIdRace
import Verif.Lemmas.Decide

/-!
# C142: the id of the machine, determined by several processes at once
-/

namespace Verif.SysIdRace
open Verif

variable {H : Bytes → Bytes} {etc : Option Bytes} {uuid : Nat → Bytes}

theorem goto_self (s : State) (i : Nat) (pc : Pc) : (s.goto i pc).pc i = pc := by simp [State.goto]

theorem goto_other (s : State) {i j : Nat} (h : j ≠ i) (pc : Pc) : (s.goto i pc).pc j = s.pc j := by simp [State.goto, h]

theorem step_other (s : State) {i j : Nat} (h : j ≠ i) : (step H etc uuid s i).pc j = s.pc j := by
  unfold step
  split
  · exact goto_other _ h _
  · exact goto_other _ h _
  · split <;> exact goto_other _ h _
  · exact goto_other _ h _
  · exact goto_other _ h _
  · exact goto_other _ h _
  · exact goto_other _ h _
  · rfl
  · rfl

theorem run_append (s : State) (a b : List Nat) : run H etc uuid s (a ++ b) = run H etc uuid (run H etc uuid s a) b := by
  induction a generalizing s with
  | nil => rfl
  | cons i a ih => exact ih _

/-- What holds at each moment: nobody raised; where somebody saw the file in `/var/tmp` it is there; and it holds what it held at first, or nothing,
or the id that one of the processes drew. -/
structure Inv (etc file0 : Option Bytes) (uuid : Nat → Bytes) (H : Bytes → Bytes) (all : List Nat) (s : State) : Prop where
  fine : ∀ i, s.pc i ≠ .raised
  there : ∀ i, s.pc i = .there ∨ s.pc i = .opened ∨ s.pc i = .reading .failover → s.file.isSome = true
  first : ∀ i, s.pc i = .reading .etc → etcUsable etc = true
  holds : s.file = file0 ∨ s.file = some [] ∨ ∃ j ∈ all, s.file = some (uuid j)
  ids : ∀ i x, s.pc i = .returned x → (∃ c, etc = some c ∧ c ≠ [] ∧ x = (H c).take 16) ∨ (∃ c, file0 = some c ∧ x = (H c).take 16) ∨
    x = (H []).take 16 ∨ ∃ j ∈ all, x = (H (uuid j)).take 16

theorem overwrite_whole {u c : Bytes} (h : c.length ≤ u.length) : overwrite u c = u := by
  simp [overwrite, List.drop_eq_nil_of_le h]

theorem pc_goto {s : State} {i : Nat} {pc : Pc} (P : Nat → Pc → Prop) (h : ∀ j, P j (s.pc j)) (hi : P i pc) (j : Nat) :
    P j ((s.goto i pc).pc j) := by
  by_cases e : j = i
  · subst e; rw [goto_self]; exact hi
  · rw [goto_other _ e]; exact h j

theorem inv_goto {file0 : Option Bytes} {all : List Nat} {s : State} (h : Inv etc file0 uuid H all s) (i : Nat) (pc : Pc)
    (h1 : pc ≠ .raised) (h2 : pc = .there ∨ pc = .opened ∨ pc = .reading .failover → s.file.isSome = true)
    (h3 : pc = .reading .etc → etcUsable etc = true)
    (h4 : ∀ x, pc = .returned x → (∃ c, etc = some c ∧ c ≠ [] ∧ x = (H c).take 16) ∨ (∃ c, file0 = some c ∧ x = (H c).take 16) ∨
      x = (H []).take 16 ∨ ∃ j ∈ all, x = (H (uuid j)).take 16) : Inv etc file0 uuid H all (s.goto i pc) :=
  ⟨pc_goto (fun _ p => p ≠ .raised) h.fine h1,
    pc_goto (fun _ p => p = .there ∨ p = .opened ∨ p = .reading .failover → s.file.isSome = true) h.there h2,
    pc_goto (fun _ p => p = .reading .etc → etcUsable etc = true) h.first h3, h.holds,
    pc_goto (fun _ p => ∀ x, p = .returned x → (∃ c, etc = some c ∧ c ≠ [] ∧ x = (H c).take 16) ∨ (∃ c, file0 = some c ∧ x = (H c).take 16) ∨
      x = (H []).take 16 ∨ ∃ j ∈ all, x = (H (uuid j)).take 16) h.ids h4⟩

theorem inv_file {file0 : Option Bytes} {all : List Nat} {s : State} (h : Inv etc file0 uuid H all s) (c : Bytes)
    (hc : c = [] ∨ ∃ j ∈ all, c = uuid j) : Inv etc file0 uuid H all { s with file := some c } :=
  ⟨h.fine, fun _ _ => rfl, h.first, .inr (hc.imp (congrArg some) fun ⟨j, hj, e⟩ => ⟨j, hj, congrArg some e⟩), h.ids⟩

theorem etcUsable_some : etcUsable etc = true ↔ ∃ c, etc = some c ∧ c ≠ [] := by
  cases etc with
  | none => simp [etcUsable]
  | some c => cases c <;> simp [etcUsable]

/-- The files that the processes find at first are not longer than the ids they draw, or they do not write. -/
theorem inv_step {file0 : Option Bytes} {all : List Nat} {n : Nat} (hu : ∀ i, (uuid i).length = n)
    (hf : ∀ c, file0 = some c → c.length ≤ n) {s : State} (h : Inv etc file0 uuid H all s)
    {i : Nat} (hi : i ∈ all) : Inv etc file0 uuid H all (step H etc uuid s i) := by
  have hlen : (s.file.getD []).length ≤ n := by
    rcases h.holds with e | e | ⟨j, -, e⟩
    · rw [e]
      cases hc : file0 with
      | none => exact Nat.zero_le _
      | some c => exact hf c hc
    · rw [e]; exact Nat.zero_le _
    · rw [e]; exact Nat.le_of_eq (hu j)
  unfold step
  cases hp : s.pc i with
  | start =>
    dsimp only
    split
    · rename_i hE; exact inv_goto h i _ (by simp) (by simp) (fun _ => hE) (by simp)
    · exact inv_goto h i _ (by simp) (by simp) (by simp) (by simp)
  | second =>
    dsimp only
    split
    · rename_i hE; exact inv_goto h i _ (by simp) (fun _ => hE) (by simp) (by simp)
    · exact inv_goto h i _ (by simp) (by simp) (by simp) (by simp)
  | there =>
    dsimp only
    have ht := h.there i (.inl hp)
    cases hc : s.file with
    | none => rw [hc] at ht; cases ht
    | some c =>
      dsimp only
      split
      · exact inv_goto h i _ (by simp) (fun _ => ht) (by simp) (by simp)
      · exact inv_goto h i _ (by simp) (by simp) (by simp) (by simp)
  | missing =>
    dsimp only
    exact inv_goto (inv_file h [] (.inl rfl)) i .opened (by simp) (fun _ => rfl) (by simp) (by simp)
  | opened =>
    dsimp only
    exact inv_goto (inv_file h _ (.inr ⟨i, hi, overwrite_whole (by rw [hu i]; exact hlen)⟩)) i (.reading .failover) (by simp) (fun _ => rfl)
      (by simp) (by simp)
  | reading w =>
    cases w with
    | etc =>
      obtain ⟨c, hc, hne⟩ := etcUsable_some.1 (h.first i hp)
      dsimp only
      exact inv_goto h i _ (by simp [hc, digest]) (by simp [hc, digest]) (by simp [hc, digest])
        (fun x hx => .inl ⟨c, hc, hne, by simpa [hc, digest, eq_comm (a := x)] using hx⟩)
    | failover =>
      dsimp only
      have ht := h.there i (.inr (.inr hp))
      cases hc : s.file with
      | none => rw [hc] at ht; cases ht
      | some c =>
        refine inv_goto h i _ (by simp [digest]) (by simp [digest]) (by simp [digest]) (fun x hx => ?_)
        have hx : x = (H c).take 16 := by simpa [digest, eq_comm (a := x)] using hx
        rcases h.holds with e | e | ⟨j, hj, e⟩ <;> rw [hc] at e
        · exact .inr (.inl ⟨c, e.symm, hx⟩)
        · cases e; exact .inr (.inr (.inl hx))
        · cases e; exact .inr (.inr (.inr ⟨j, hj, hx⟩))
  | returned => exact h
  | raised => exact h

theorem inv_run {file0 : Option Bytes} {all : List Nat} {n : Nat} (hu : ∀ i, (uuid i).length = n)
    (hf : ∀ c, file0 = some c → c.length ≤ n) (sched : List Nat) (hs : ∀ i ∈ sched, i ∈ all) {s : State}
    (h : Inv etc file0 uuid H all s) : Inv etc file0 uuid H all (run H etc uuid s sched) := by
  induction sched generalizing s with
  | nil => exact h
  | cons i sched ih =>
    exact ih (fun j hj => hs j (List.mem_cons_of_mem _ hj)) (inv_step hu hf h (hs i List.mem_cons_self))

theorem inv_init (file0 : Option Bytes) (all : List Nat) : Inv etc file0 uuid H all (.init file0) :=
  ⟨by simp [State.init], by simp [State.init], by simp [State.init], .inl rfl, by simp [State.init]⟩

/-- **C142**: on a machine without an id, nobody raises; the file holds nothing or the whole id that one of the processes drew; and what a process is told
is the id of one of these, or that of an empty file. -/
theorem C142_whole {n : Nat} (hu : ∀ i, (uuid i).length = n) (file : Option Bytes) (he : etc = none ∨ etc = some [])
    (hf : file = none ∨ file = some []) (sched : List Nat) :
    (∀ i, (run H etc uuid (.init file) sched).pc i ≠ .raised) ∧
    (∀ c, (run H etc uuid (.init file) sched).file = some c → c = [] ∨ ∃ j ∈ sched, c = uuid j) ∧
    ∀ i x, (run H etc uuid (.init file) sched).pc i = .returned x →
      x = (H []).take 16 ∨ ∃ j ∈ sched, x = (H (uuid j)).take 16 := by
  have h := inv_run (H := H) (etc := etc) (uuid := uuid) (n := n) hu (file0 := file) (all := sched)
    (by rcases hf with rfl | rfl <;> simp) sched (fun _ h => h) (inv_init file sched)
  refine ⟨h.fine, fun c hc => ?_, fun i x hx => ?_⟩
  · rcases h.holds with e | e | ⟨j, hj, e⟩
    · rcases hf with hf | hf <;> rw [hc, hf] at e <;> cases e
      exact .inl rfl
    · rw [hc] at e; cases e; exact .inl rfl
    · rw [hc] at e; cases e; exact .inr ⟨j, hj, rfl⟩
  · rcases h.ids i x hx with ⟨c, h1, h2, -⟩ | ⟨c, h1, h2⟩ | h1 | h1
    · rcases he with he | he <;> rw [he] at h1 <;> cases h1
      exact absurd rfl h2
    · rcases hf with hf | hf <;> rw [hf] at h1 <;> cases h1
      exact .inl h2
    · exact .inl h1
    · exact .inr h1

/-- The id is written and nobody is about to write. -/
def Settled (s : State) (c : Bytes) : Prop :=
  s.file = some c ∧ c ≠ [] ∧ ∀ i, s.pc i ≠ .missing ∧ s.pc i ≠ .opened ∧ s.pc i ≠ .raised ∧ s.pc i ≠ .reading .etc

theorem settled_step (he : etc = none ∨ etc = some []) {s : State} {c : Bytes} (h : Settled s c) (i : Nat) :
    Settled (step H etc uuid s i) c ∧
      ∀ j x, (step H etc uuid s i).pc j = .returned x → s.pc j = .returned x ∨ x = (H c).take 16 := by
  obtain ⟨hf, hc, hp⟩ := h
  have hE : etcUsable etc = false := by rcases he with rfl | rfl <;> rfl
  have go : ∀ pc : Pc, (pc ≠ .missing ∧ pc ≠ .opened ∧ pc ≠ .raised ∧ pc ≠ .reading .etc) → (∀ x, pc = .returned x → x = (H c).take 16) →
      Settled (s.goto i pc) c ∧ ∀ j x, (s.goto i pc).pc j = .returned x → s.pc j = .returned x ∨ x = (H c).take 16 :=
    fun pc h1 h2 => ⟨⟨hf, hc, pc_goto (fun _ p => p ≠ .missing ∧ p ≠ .opened ∧ p ≠ .raised ∧ p ≠ .reading .etc) hp h1⟩,
      fun j x hx => by
        by_cases e : j = i
        · subst e; rw [goto_self] at hx; exact .inr (h2 x hx)
        · rw [goto_other _ e] at hx; exact .inl hx⟩
  have hlen : c.length > 0 := by cases c with | nil => exact absurd rfl hc | cons => simp
  unfold step
  cases hi : s.pc i with
  | start => simp only [hE]; exact go _ (by simp) (by simp)
  | second => simp only [hf]; exact go _ (by simp) (by simp)
  | there => simp only [hf, hlen, if_true]; exact go _ (by simp) (by simp)
  | missing => exact absurd hi (hp i).1
  | opened => exact absurd hi (hp i).2.1
  | reading w =>
    cases w with
    | etc => exact absurd hi (hp i).2.2.2
    | failover =>
      simp only [hf]
      exact go _ (by simp [digest]) (fun x hx => by simpa [digest, eq_comm (a := x)] using hx)
  | returned => exact ⟨⟨hf, hc, hp⟩, fun j x hx => .inl hx⟩
  | raised => exact absurd hi (hp i).2.2.1

/-- **C142**: once an id is in the file and nobody is about to write one, it stays, and every process that is told an id from then on is told this one. -/
theorem C142_agree (he : etc = none ∨ etc = some []) {s : State} {c : Bytes} (h : Settled s c) (sched : List Nat) :
    (run H etc uuid s sched).file = some c ∧
    ∀ i x, (run H etc uuid s sched).pc i = .returned x → s.pc i = .returned x ∨ x = (H c).take 16 := by
  induction sched generalizing s with
  | nil => exact ⟨h.1, fun i x hx => .inl hx⟩
  | cons i sched ih =>
    obtain ⟨h1, h2⟩ := settled_step (H := H) (uuid := uuid) he h i
    obtain ⟨h3, h4⟩ := ih h1
    exact ⟨h3, fun j x hx => (h4 j x hx).elim (h2 j x) .inr⟩

/-- Where `/etc` has an id. -/
theorem etc_run {c : Bytes} (hc : c ≠ []) (f : Option Bytes) (sched : List Nat) : ∀ s : State, s.file = f →
    (∀ i, s.pc i = .start ∨ s.pc i = .reading .etc ∨ s.pc i = .returned ((H c).take 16)) →
    (run H (some c) uuid s sched).file = f ∧
    ∀ i, (run H (some c) uuid s sched).pc i = .start ∨ (run H (some c) uuid s sched).pc i = .reading .etc ∨
      (run H (some c) uuid s sched).pc i = .returned ((H c).take 16) := by
  induction sched with
  | nil => exact fun s h1 h2 => ⟨h1, h2⟩
  | cons i sched ih =>
    intro s h1 h2
    have hE : etcUsable (some c) = true := etcUsable_some.2 ⟨c, rfl, hc⟩
    have go : ∀ pc : Pc, (pc = .start ∨ pc = .reading .etc ∨ pc = .returned ((H c).take 16)) →
        (run H (some c) uuid (s.goto i pc) sched).file = f ∧
        ∀ j, (run H (some c) uuid (s.goto i pc) sched).pc j = .start ∨ (run H (some c) uuid (s.goto i pc) sched).pc j = .reading .etc ∨
          (run H (some c) uuid (s.goto i pc) sched).pc j = .returned ((H c).take 16) := fun pc hpc =>
      ih (s.goto i pc) h1 (pc_goto (fun _ p => p = .start ∨ p = .reading .etc ∨ p = .returned ((H c).take 16)) h2 hpc)
    have hs : step H (some c) uuid s i = match s.pc i with
        | .start => s.goto i (.reading .etc)
        | .reading .etc => s.goto i (.returned ((H c).take 16))
        | _ => s := by
      rcases h2 i with e | e | e <;> simp [step, e, hE, digest]
    rw [run, hs]
    rcases h2 i with e | e | e <;> rw [e]
    · exact go _ (.inr (.inl rfl))
    · exact go _ (.inr (.inr rfl))
    · exact ih s h1 h2

/-- **C142**: where there was an id at first, every process is told this one, and nothing is written. -/
theorem C142_existing (file : Option Bytes) {c : Bytes} (hc : c ≠ [])
    (h : etc = some c ∨ (etc = none ∨ etc = some []) ∧ file = some c) (sched : List Nat) :
    (run H etc uuid (.init file) sched).file = file ∧
    (∀ i x, (run H etc uuid (.init file) sched).pc i = .returned x → x = (H c).take 16) := by
  rcases h with rfl | ⟨he, rfl⟩
  · obtain ⟨h1, h2⟩ := etc_run (H := H) (uuid := uuid) hc file sched (.init file) rfl (fun _ => .inl rfl)
    refine ⟨h1, fun i x hx => ?_⟩
    rcases h2 i with e | e | e <;> rw [hx] at e <;> cases e
    rfl
  · obtain ⟨h1, h2⟩ := C142_agree (H := H) (uuid := uuid) he (s := .init (some c)) (c := c)
      ⟨rfl, hc, fun i => by simp [State.init]⟩ sched
    exact ⟨h1, fun i x hx => (h2 i x hx).elim (fun h => by simp [State.init] at h) id⟩

/-- **C142**: if the first process that asks has written its id before any other looks, every process is told this id. -/
theorem C142_first (he : etc = none ∨ etc = some []) (file : Option Bytes) (hf : file = none ∨ file = some []) (i : Nat)
    (hu : uuid i ≠ []) (sched : List Nat) :
    (run H etc uuid (.init file) (List.replicate 5 i ++ sched)).file = some (uuid i) ∧
    ∀ j x, (run H etc uuid (.init file) (List.replicate 5 i ++ sched)).pc j = .returned x → x = (H (uuid i)).take 16 := by
  have hE : etcUsable etc = false := by rcases he with rfl | rfl <;> rfl
  have hs : Settled (run H etc uuid (.init file) (List.replicate 5 i)) (uuid i) ∧
      ∀ j x, (run H etc uuid (.init file) (List.replicate 5 i)).pc j = .returned x → x = (H (uuid i)).take 16 := by
    rcases hf with rfl | rfl
    · refine ⟨⟨?_, hu, fun j => ?_⟩, fun j x hx => ?_⟩
      · simp [run, step, State.init, State.goto, List.replicate, hE, overwrite, digest]
      · by_cases e : j = i <;> simp [run, step, State.init, State.goto, List.replicate, hE, overwrite, digest, e]
      · by_cases e : j = i <;> simp [run, step, State.init, State.goto, List.replicate, hE, overwrite, digest, e] at hx
        exact hx.symm
    · refine ⟨⟨?_, hu, fun j => ?_⟩, fun j x hx => ?_⟩
      · simp [run, step, State.init, State.goto, List.replicate, hE, overwrite, digest]
      · by_cases e : j = i <;> simp [run, step, State.init, State.goto, List.replicate, hE, overwrite, digest, e]
      · by_cases e : j = i <;> simp [run, step, State.init, State.goto, List.replicate, hE, overwrite, digest, e] at hx
  rw [run_append]
  obtain ⟨h1, h2⟩ := C142_agree (H := H) (uuid := uuid) he hs.1 sched
  exact ⟨h1, fun j x hx => (h2 j x hx).elim (hs.2 j x) id⟩

/-- Somebody is between opening the file and writing to it, or there is something in it, or nobody has written yet. -/
def Guard (s : State) : Prop :=
  (∃ c, s.file = some c ∧ c ≠ []) ∨ (∃ j, s.pc j = .opened) ∨ ∀ j, s.pc j ≠ .reading .failover

theorem guard_step (hu : ∀ i, uuid i ≠ []) {s : State} (h : Guard s) (i : Nat) : Guard (step H etc uuid s i) := by
  by_cases hm : s.pc i = .missing
  · exact .inr (.inl ⟨i, by simp [step, hm, State.goto]⟩)
  by_cases ho : s.pc i = .opened
  · refine .inl ⟨overwrite (uuid i) (s.file.getD []), by simp [step, ho, State.goto], ?_⟩
    cases hc : uuid i with
    | nil => exact absurd hc (hu i)
    | cons a l => simp [overwrite]
  have hfile : (step H etc uuid s i).file = s.file := by
    unfold step
    split
    · rfl
    · rfl
    · split <;> rfl
    · rename_i e; exact absurd e hm
    · rename_i e; exact absurd e ho
    · rfl
    · rfl
    · rfl
    · rfl
  rcases h with ⟨c, h1, h2⟩ | ⟨j, hj⟩ | h
  · exact .inl ⟨c, hfile.trans h1, h2⟩
  · have hji : j ≠ i := fun e => ho (e ▸ hj)
    exact .inr (.inl ⟨j, (step_other s hji).trans hj⟩)
  · by_cases ht : (∃ c, s.file = some c ∧ c ≠ [])
    · obtain ⟨c, h1, h2⟩ := ht
      exact .inl ⟨c, hfile.trans h1, h2⟩
    · refine .inr (.inr fun j => ?_)
      by_cases e : j = i
      · subst e
        unfold step
        cases hp : s.pc j with
        | start => dsimp only; rw [goto_self]; split <;> simp
        | second => dsimp only; rw [goto_self]; split <;> simp
        | there =>
          dsimp only
          cases hc : s.file with
          | none => simp [State.goto]
          | some c =>
            have hce : c = [] := by
              cases c with
              | nil => rfl
              | cons a l => exact absurd ⟨_, hc, by simp⟩ ht
            simp [State.goto, hce]
        | missing => exact absurd hp hm
        | opened => exact absurd hp ho
        | reading w =>
          cases w with
          | etc => dsimp only; rw [goto_self]; cases etc <;> simp [digest]
          | failover => exact absurd hp (h j)
        | returned => simp [hp]
        | raised => simp [hp]
      · rw [step_other s e]; exact h j

/-- **C142**: the file is empty when a process reads it only while another process is between opening and writing it. -/
theorem C142_empty (hu : ∀ i, uuid i ≠ []) (file : Option Bytes) (sched : List Nat) (i : Nat)
    (hi : (run H etc uuid (.init file) sched).pc i = .reading .failover)
    (hf : (run H etc uuid (.init file) sched).file = some []) :
    ∃ j, j ≠ i ∧ (run H etc uuid (.init file) sched).pc j = .opened := by
  have h : ∀ (sched : List Nat) (s : State), Guard s → Guard (run H etc uuid s sched) := by
    intro sched
    induction sched with
    | nil => exact fun s h => h
    | cons i sched ih => exact fun s h => ih _ (guard_step hu h i)
  rcases h sched (.init file) (.inr (.inr fun j => by simp [State.init])) with ⟨c, h1, h2⟩ | ⟨j, hj⟩ | h
  · rw [hf] at h1; cases h1; exact absurd rfl h2
  · exact ⟨j, fun e => (by rw [e, hi] at hj; cases hj), hj⟩
  · exact absurd hi (h i)

/-- So many system calls are left. -/
def left : Pc → Nat
  | .start => 6
  | .second => 5
  | .there => 4
  | .missing => 3
  | .opened => 2
  | .reading _ => 1
  | .returned _ | .raised => 0

theorem left_step (s : State) (i : Nat) : left ((step H etc uuid s i).pc i) ≤ left (s.pc i) - 1 := by
  unfold step
  cases hp : s.pc i with
  | start => dsimp only; rw [goto_self]; split <;> simp [left]
  | second => dsimp only; rw [goto_self]; split <;> simp [left]
  | there =>
    dsimp only
    split
    · rw [goto_self]; split <;> simp [left]
    · rw [goto_self]; simp [left]
  | missing => simp [State.goto, left]
  | opened => simp [State.goto, left]
  | reading w =>
    cases w with
    | etc => dsimp only; rw [goto_self]; cases etc <;> simp [digest, left]
    | failover => dsimp only; rw [goto_self]; cases s.file <;> simp [digest, left]
  | returned => simp [hp, left]
  | raised => simp [hp, left]

theorem left_run (i : Nat) : ∀ (sched : List Nat) (s : State), left ((run H etc uuid s sched).pc i) ≤ left (s.pc i) - sched.count i := by
  intro sched
  induction sched with
  | nil => intro s; simp [run]
  | cons j sched ih =>
    intro s
    have h := ih (step H etc uuid s j)
    rw [run]
    by_cases e : j = i
    · subst e
      have h2 := left_step (H := H) (etc := etc) (uuid := uuid) s j
      rw [List.count_cons_self]
      omega
    · rw [step_other s (Ne.symm e)] at h
      rw [List.count_cons_of_ne (by simpa using e)]
      exact h

/-- Nobody raised, and where somebody saw a file it is there. -/
structure Fine (etc : Option Bytes) (s : State) : Prop where
  fine : ∀ i, s.pc i ≠ .raised
  there : ∀ i, s.pc i = .there ∨ s.pc i = .opened ∨ s.pc i = .reading .failover → s.file.isSome = true
  first : ∀ i, s.pc i = .reading .etc → etcUsable etc = true

theorem fine_goto {s : State} (h : Fine etc s) (i : Nat) (pc : Pc)
    (h1 : pc ≠ .raised) (h2 : pc = .there ∨ pc = .opened ∨ pc = .reading .failover → s.file.isSome = true)
    (h3 : pc = .reading .etc → etcUsable etc = true) : Fine etc (s.goto i pc) :=
  ⟨pc_goto (fun _ p => p ≠ .raised) h.fine h1,
    pc_goto (fun _ p => p = .there ∨ p = .opened ∨ p = .reading .failover → s.file.isSome = true) h.there h2,
    pc_goto (fun _ p => p = .reading .etc → etcUsable etc = true) h.first h3⟩

theorem fine_file {s : State} (h : Fine etc s) (c : Bytes) : Fine etc { s with file := some c } := ⟨h.fine, fun _ _ => rfl, h.first⟩

theorem fine_step {s : State} (h : Fine etc s) (i : Nat) : Fine etc (step H etc uuid s i) := by
  unfold step
  cases hp : s.pc i with
  | start =>
    dsimp only
    split
    · rename_i hE; exact fine_goto h i _ (by simp) (by simp) (fun _ => hE)
    · exact fine_goto h i _ (by simp) (by simp) (by simp)
  | second =>
    dsimp only
    split
    · rename_i hE; exact fine_goto h i _ (by simp) (fun _ => hE) (by simp)
    · exact fine_goto h i _ (by simp) (by simp) (by simp)
  | there =>
    dsimp only
    have ht := h.there i (.inl hp)
    cases hc : s.file with
    | none => rw [hc] at ht; cases ht
    | some c =>
      dsimp only
      split
      · exact fine_goto h i _ (by simp) (fun _ => ht) (by simp)
      · exact fine_goto h i _ (by simp) (by simp) (by simp)
  | missing => exact fine_goto (fine_file h []) i .opened (by simp) (fun _ => rfl) (by simp)
  | opened => exact fine_goto (fine_file h _) i (.reading .failover) (by simp) (fun _ => rfl) (by simp)
  | reading w =>
    cases w with
    | etc =>
      obtain ⟨c, hc, hne⟩ := etcUsable_some.1 (h.first i hp)
      exact fine_goto h i _ (by simp [hc, digest]) (by simp [hc, digest]) (by simp [hc, digest])
    | failover =>
      have ht := h.there i (.inr (.inr hp))
      cases hc : s.file with
      | none => rw [hc] at ht; cases ht
      | some c => exact fine_goto h i _ (by simp [digest]) (by simp [digest]) (by simp [digest])
  | returned => exact h
  | raised => exact h

theorem fine_run (sched : List Nat) : ∀ {s : State}, Fine etc s → Fine etc (run H etc uuid s sched) := by
  induction sched with
  | nil => exact fun h => h
  | cons i sched ih => exact fun h => ih (fine_step h i)

/-- **C142**: a process has its id after six system calls, whatever the others do. -/
theorem C142_ends (file : Option Bytes) (sched : List Nat) (i : Nat) (h : 6 ≤ sched.count i) : ∃ x, (run H etc uuid (.init file) sched).pc i = .returned x := by
  have h1 := left_run (H := H) (etc := etc) (uuid := uuid) i sched (.init file)
  have h2 := (fine_run (H := H) (etc := etc) (uuid := uuid) sched (s := .init file)
    ⟨by simp [State.init], by simp [State.init], by simp [State.init]⟩).fine i
  have h3 : left ((run H etc uuid (.init file) sched).pc i) = 0 := by
    have : left ((State.init file).pc i) = 6 := rfl
    omega
  cases hp : (run H etc uuid (.init file) sched).pc i with
  | returned x => exact ⟨x, rfl⟩
  | raised => exact absurd hp h2
  | _ => rw [hp] at h3; cases h3

/-- The machine of `Model/SysId` with these files, which may be read, written and made. -/
def machine (etc file : Option Bytes) : SysId.Machine := ⟨etc.map (⟨true, true, ·⟩), file.map (⟨true, true, ·⟩), true⟩

/-- **C142**: a process that nobody disturbs is told what `SysId.rawId` says, and leaves the file that it leaves. -/
theorem C142_alone (file : Option Bytes) (i : Nat) :
    ∃ x, (run H etc uuid (.init file) (List.replicate 6 i)).pc i = .returned x ∧
      SysId.rawId H (uuid i) (machine etc file) = (.ok x, machine etc (run H etc uuid (.init file) (List.replicate 6 i)).file) := by
  have e0 : ∀ o : Option Bytes, SysId.usable (o.map (⟨true, true, ·⟩)) = etcUsable o := by
    intro o; cases o <;> simp [SysId.usable, etcUsable]
  by_cases hE : etcUsable etc = true
  · obtain ⟨c, hc, hne⟩ := etcUsable_some.1 hE
    subst hc
    refine ⟨(H c).take 16, ?_, ?_⟩ <;>
    simp [run, step, State.init, State.goto, List.replicate, hE, digest, SysId.rawId, SysId.sysidpath, machine, SysId.usable, SysId.Machine.file] 
    cases c with
    | nil => exact absurd rfl hne
    | cons => simp
  · have hE : etcUsable etc = false := by simpa using hE
    have hU : SysId.usable (etc.map (⟨true, true, ·⟩)) = false := (e0 etc).trans hE
    have h0 : SysId.usable none = false := rfl
    have h1 : SysId.usable (some ⟨true, true, []⟩) = false := rfl
    have h2 : ∀ a l, SysId.usable (some ⟨true, true, a :: l⟩) = true := fun _ _ => rfl
    cases file with
    | none =>
      refine ⟨(H (uuid i)).take 16, ?_, ?_⟩ <;>
      simp [run, step, State.init, State.goto, List.replicate, hE, digest, SysId.rawId, SysId.sysidpath, machine, hU, h0, h1, h2,
        SysId.Machine.file, SysId.writeFailover, overwrite]
    | some c =>
      cases c with
      | nil =>
        refine ⟨(H (uuid i)).take 16, ?_, ?_⟩ <;>
        simp [run, step, State.init, State.goto, List.replicate, hE, digest, SysId.rawId, SysId.sysidpath, machine, hU, h0, h1, h2,
          SysId.Machine.file, SysId.writeFailover, overwrite]
      | cons a l =>
        refine ⟨(H (a :: l)).take 16, ?_, ?_⟩ <;>
        simp [run, step, State.init, State.goto, List.replicate, hE, digest, SysId.rawId, SysId.sysidpath, machine, hU, h0, h1, h2,
          SysId.Machine.file]

/-- C142 is false without its hypotheses: two processes that begin together on a machine without an id may be told different ones, and the first is then
told an id that no later process is told. -/
theorem C142_differ_counterexample (H : Bytes → Bytes) (u v : Bytes) (hv : v ≠ []) (h : (H u).take 16 ≠ (H v).take 16) :
    ∃ sched x y z, (run H none (fun i => if i = 0 then u else v) (.init none) sched).pc 0 = .returned x ∧
      (run H none (fun i => if i = 0 then u else v) (.init none) sched).pc 1 = .returned y ∧
      (run H none (fun i => if i = 0 then u else v) (.init none) sched).pc 2 = .returned z ∧ x ≠ y ∧ y = z := by
  refine ⟨[0, 0, 1, 1, 0, 0, 0, 1, 1, 1, 2, 2, 2, 2], (H u).take 16, (H v).take 16, (H v).take 16, ?_, ?_, ?_, h, rfl⟩ <;>
  cases v <;> simp [run, step, State.init, State.goto, etcUsable, overwrite, digest] at hv ⊢

/-- C142 is false without its hypotheses: a process may be told the id of an empty file, which is the same on every machine, even though it wrote its own. -/
theorem C142_empty_counterexample (H : Bytes → Bytes) (uuid : Nat → Bytes) :
    ∃ sched, (run H none uuid (.init none) sched).pc 0 = .returned ((H []).take 16) := by
  refine ⟨[0, 0, 1, 1, 0, 0, 1, 0], ?_⟩
  simp [run, step, State.init, State.goto, etcUsable, digest]

/-- The hypotheses are met: three processes on a machine without an id, the first of which is done before the others look. -/
example : (run (fun b => 7 :: b) none (fun i => [UInt8.ofNat i, 1]) (.init none) ([0, 0, 0, 0, 0] ++ [1, 2, 0, 1, 2, 1, 1, 2, 2])).pc 2
    = .returned [7, 0, 1] := by decide

example : Settled (run (fun b => 7 :: b) none (fun i => [UInt8.ofNat i, 1]) (.init none) [0, 0, 1, 1, 0, 0, 1, 1, 2]) [1, 1] :=
  ⟨by decide, by decide, fun i => by
    by_cases h0 : i = 0
    · subst h0; decide
    by_cases h1 : i = 1
    · subst h1; decide
    by_cases h2 : i = 2
    · subst h2; decide
    simp [run, step, State.init, State.goto, etcUsable, h0, h1, h2]⟩

example : (run (fun b => 7 :: b) none (fun i => [UInt8.ofNat i, 1]) (.init none) [0, 0, 1, 1, 0, 0, 1]).pc 0 = .reading .failover ∧
    (run (fun b => 7 :: b) none (fun i => [UInt8.ofNat i, 1]) (.init none) [0, 0, 1, 1, 0, 0, 1]).file = some [] := by decide

end Verif.SysIdRace
