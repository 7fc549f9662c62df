import Verif.Model.SshData
import Verif.Lemmas.Data
import Verif.Lemmas.Decide

/-!
# C121: the data of an ssh remote
-/

namespace Verif.Data

/-- A run of `cat` on a file with this content: what comes out is the beginning of it, and all of it when the run ends well. -/
def Spec.CatOf (content : Bytes) (r : Run) : Prop :=
  r.started = true ∧ r.out <+: content ∧ (r.status = 0 → r.out = content)

theorem sshChunk_pos : 0 < sshChunk := by decide

/-- The unread part of an opened pipe gives its pieces, and then the generator is done. -/
theorem take_open (r : Run) : ∀ (k : Nat) (rest : Bytes),
    (Pipe.take r k (.open_ rest)).1 = (dataChunks sshChunk rest).take k ∧
    (Pipe.take r k (.open_ rest)).2 = if k ≤ (dataChunks sshChunk rest).length then .open_ (rest.drop (k * sshChunk)) else .done := by
  intro k
  induction k with
  | zero => intro rest; simp [Pipe.take]
  | succ k ih =>
    intro rest
    rw [dataChunks]
    by_cases h : rest.take sshChunk = []
    · simp [Pipe.take, Pipe.next, h]
    · obtain ⟨h1, h2⟩ := ih (rest.drop sshChunk)
      simp only [Pipe.take, Pipe.next, h, if_false, dite_false, h1, h2, List.take_succ_cons, List.length_cons, Nat.add_le_add_iff_right, List.drop_drop, true_and]
      congr 2
      rw [Nat.add_mul, Nat.one_mul, Nat.add_comm]

theorem take_fresh (r : Run) (hs : r.started = true) (k : Nat) :
    (Pipe.take r k .fresh).1 = (dataChunks sshChunk r.out).take k ∧
    (Pipe.take r k .fresh).2 = if k = 0 then .fresh
      else if k ≤ (dataChunks sshChunk r.out).length then .open_ (r.out.drop (k * sshChunk)) else .done := by
  cases k with
  | zero => simp [Pipe.take]
  | succ k =>
    have := take_open r (k + 1) r.out
    have e : Pipe.take r (k + 1) .fresh = Pipe.take r (k + 1) (.open_ r.out) := by
      simp [Pipe.take, Pipe.next, hs]
    rw [e]
    simpa using this

theorem pieces (n : Nat) (hn : 0 < n) : ∀ (k : Nat) (b : Bytes), ((dataChunks n b).take k).flatten = b.take (k * n) := by
  intro k
  induction k with
  | zero => intro b; simp
  | succ k ih =>
    intro b
    rw [dataChunks]
    by_cases h : b.take n = []
    · rcases List.take_eq_nil_iff.1 h with h | rfl
      · omega
      · simp
    · simp only [h, dite_false, List.take_succ_cons, List.flatten_cons, ih]
      rw [Nat.add_mul, Nat.one_mul, Nat.add_comm (k * n), List.take_add]

/-- C121: whoever asks `k` times has the beginning of what came out, up to `k` pieces of 4096 bytes, and no piece is empty or longer. -/
theorem C121_taken (r : Run) (hs : r.started = true) (k : Nat) :
    (Pipe.take r k .fresh).1.flatten = r.out.take (k * 4096) ∧
    ∀ c ∈ (Pipe.take r k .fresh).1, 0 < c.length ∧ c.length ≤ 4096 := by
  obtain ⟨h, -⟩ := take_fresh r hs k
  rw [h]
  exact ⟨pieces sshChunk sshChunk_pos k r.out, fun c hc => dataChunks_bounds _ _ c (List.mem_of_mem_take hc)⟩

/-- C121 (part): when the remote command ends well, what is read is what the remote has, and the process is waited for.
(Full claim: what is read is what the remote has, or reading raises.) -/
theorem C121_whole_partial (content : Bytes) (r : Run) (h : Spec.CatOf content r) (ok : r.status = 0) (k : Nat) (hk : content.length < k) :
    (Pipe.take r k .fresh).1.flatten = content ∧ (Pipe.take r k .fresh).2.waited = true ∧
    (sshStream r).chunks.flatten = content ∧ (sshStream r).err = none := by
  obtain ⟨hs, -, ho⟩ := h
  have ho := ho ok
  obtain ⟨h1, -⟩ := C121_taken r hs k
  obtain ⟨-, h2⟩ := take_fresh r hs k
  have hlen : (dataChunks sshChunk r.out).length < k := by
    have hb := dataChunks_bounds sshChunk r.out
    have hf := congrArg List.length (dataChunks_flatten sshChunk sshChunk_pos r.out)
    have : ∀ l : List Bytes, (∀ c ∈ l, 0 < c.length ∧ c.length ≤ sshChunk) → l.length ≤ l.flatten.length := by
      intro l
      induction l with
      | nil => simp
      | cons a l ih =>
        intro hl
        have := ih fun c hc => hl c (by simp [hc])
        have := (hl a (by simp)).1
        simp only [List.length_cons, List.flatten_cons, List.length_append]; omega
    have := this _ hb
    rw [ho] at this hf ⊢
    omega
  refine ⟨?_, ?_, ?_, ?_⟩
  · rw [h1, ho, List.take_of_length_le]; omega
  · rw [h2, if_neg (by omega), if_neg (by omega)]; rfl
  · simp only [sshStream, hs, if_true]
    rw [dataChunks_flatten _ sshChunk_pos, ho]
  · simp [sshStream, hs]

/-- C121 (fails): a reading that broke off cannot be told from one of a shorter file that went well: the values, the ends and the
states are the same, whenever and however often it is asked. -/
theorem C121_silent_counterexample (content : Bytes) (r : Run) (h : Spec.CatOf content r) :
    ∃ r', Spec.CatOf r.out r' ∧ r'.status = 0 ∧ sshStream r' = sshStream r ∧ ∀ k p, Pipe.take r' k p = Pipe.take r k p := by
  refine ⟨⟨true, r.out, 0⟩, ⟨rfl, List.prefix_refl _, fun _ => rfl⟩, rfl, by simp [sshStream, h.1], ?_⟩
  intro k
  induction k with
  | zero => intro p; rfl
  | succ k ih =>
    intro p
    have e : ∀ p : Pipe, p.next ⟨true, r.out, 0⟩ = p.next r := by
      intro p; cases p <;> simp [Pipe.next, h.1]
    simp only [Pipe.take, e, ih]

/-- C121: what is in the file after `local.data = remote.data`: what came out, in place of what was there; nothing is written and `StopIteration` is
raised when nothing came out. -/
theorem C121_written (r : Run) (hs : r.started = true) (file : Option Bytes) :
    writeChunksPosix file (sshStream r) = if r.out = [] then (file, some .stopIteration) else (some r.out, none) := by
  have hst : sshStream r = ⟨dataChunks sshChunk r.out, none⟩ := by simp [sshStream, hs]
  have hf := dataChunks_flatten sshChunk sshChunk_pos r.out
  rw [hst, writeChunksPosix]
  by_cases ho : r.out = []
  · rw [(dataChunks_nil_iff sshChunk sshChunk_pos r.out).2 ho]
    simp [ho, Stream.firstErr]
  · cases hc : dataChunks sshChunk r.out with
    | nil => exact absurd ((dataChunks_nil_iff sshChunk sshChunk_pos r.out).1 hc) ho
    | cons c cs =>
      rw [hc] at hf
      simp only [foldl_append, List.nil_append, if_neg ho]
      rw [← hf]; simp

/-- C121 (fails): what was in the file is replaced by the beginning of the new content, and nothing is raised. -/
theorem C121_written_counterexample (content : Bytes) (r : Run) (h : Spec.CatOf content r) (ho : r.out ≠ []) (hc : r.out ≠ content) (file : Option Bytes) :
    ∃ b, writeChunksPosix file (sshStream r) = (some b, none) ∧ b ≠ content ∧ b <+: content := by
  refine ⟨r.out, ?_, hc, h.2.1⟩
  rw [C121_written r h.1, if_neg ho]

/-- C121: whoever compares the size afterwards, as `fetch` does, finds out. -/
theorem C121_size (content : Bytes) (r : Run) (h : Spec.CatOf content r) (file : Option Bytes) (b : Bytes)
    (hw : writeChunksPosix file (sshStream r) = (some b, none)) : b.length = content.length ↔ b = content := by
  rw [C121_written r h.1] at hw
  split at hw
  · exact nomatch hw
  · injection hw with hw _
    injection hw with hw
    subst hw
    exact ⟨h.2.1.eq_of_length, fun h => by rw [h]⟩

/-- C121: without `ssh` reading raises at the first value, and nothing is written. -/
theorem C121_no_program (r : Run) (hs : r.started = false) (file : Option Bytes) (k : Nat) :
    Pipe.take r (k + 1) .fresh = ([], .failed .fileNotFoundError) ∧ writeChunksPosix file (sshStream r) = (file, some .fileNotFoundError) := by
  simp [Pipe.take, Pipe.next, sshStream, hs, writeChunksPosix, Stream.firstErr]

/-- C121 (fails): nobody waits for the process of a reader that stops before the end, even if it has taken all there is. -/
theorem C121_left_counterexample (r : Run) (hs : r.started = true) (k : Nat) (hk : 0 < k) (hl : (k - 1) * 4096 < r.out.length) :
    ((Pipe.take r k .fresh).2.close).waited = false := by
  obtain ⟨-, h⟩ := take_fresh r hs k
  have hle : k ≤ (dataChunks sshChunk r.out).length := by
    apply Nat.le_of_not_lt
    intro hlt
    have hp := pieces sshChunk sshChunk_pos (k - 1) r.out
    rw [List.take_of_length_le (by omega), dataChunks_flatten _ sshChunk_pos] at hp
    have := congrArg List.length hp
    rw [List.length_take] at this
    have e : (k - 1) * sshChunk = (k - 1) * 4096 := rfl
    omega
  rw [h, if_neg (by omega), if_pos hle]
  rfl

example : Spec.CatOf [1, 2, 3] ⟨true, [1, 2], 1⟩ := ⟨rfl, by decide, by decide⟩
example : Spec.CatOf [1, 2, 3] ⟨true, [1, 2, 3], 0⟩ ∧ ([1, 2, 3] : Bytes).length < 4 := ⟨⟨rfl, by decide, fun _ => rfl⟩, by decide⟩
example : (1 - 1) * 4096 < ([1, 2] : Bytes).length := by decide
example : writeChunksPosix (some [9]) (sshStream ⟨true, [1, 2], 1⟩) = (some [1, 2], none) := by decide +kernel

end Verif.Data
