import Verif.Model.SymlinkCache
import Verif.Lemmas.Crumple

namespace Verif.Cache
open Verif.FS

/-- A text that is the name of a file. -/
def Nameable (s : Name) : Prop := s ≠ [] ∧ s ≠ ['.'] ∧ s ≠ ['.', '.']

instance (s : Name) : Decidable (Nameable s) := by unfold Nameable; infer_instance

section
variable {ν : Type} [Kinded ν]

theorem Nameable.path {T : Trash ν} {s : Name} (h : Nameable s) : T.path s = T.loc ++ [s] := by
  rw [Trash.path, if_neg (by simp [h.1, h.2.1])]

theorem Nameable.place {T : Trash ν} {s : Name} (h : Nameable s) : T.place s = T.loc ++ [s] := by
  rw [Trash.place, if_neg h.2.2, h.path]

/-- Every run of `crumple` when the trash is there. -/
theorem crumple_there (T : Trash ν) {i : Str} (hi : Nameable (fsSafeId i)) {q : Path} (hq : Nameable (nameOf q)) {d0 : Disk ν}
    (hl : T.leads d0 T.loc = true) :
    Hoare (fun d => d = d0) (T.crumple (some i) q)
      (fun _ d => ∃ n, d0.rename q (T.loc ++ [n]) = .ok d)
      (fun e d => d = d0 ∧ (e = .fileExistsError → ∃ n, T.F n = some .fileExistsError)) := by
  unfold Trash.crumple
  dsimp only
  rw [hi.path, List.dropLast_concat]
  refine .bind_ (Q := fun b d => d = d0 ∧ b = true) ?_ fun b => ?_
  · refine .look_err ?_ ?_
    · rintro d a rfl h
      simp only [Except.ok.injEq] at h
      exact ⟨rfl, h ▸ hl⟩
    · rintro e d rfl h
      refine ⟨rfl, fun he => ?_⟩
      rcases h with ⟨n, h⟩ | h
      · exact ⟨n, he ▸ h⟩
      · simp at h
  · refine Hoare.pre (P := fun d => b = true ∧ d = d0) (.of_pre fun hb => ?_) (fun d h => ⟨h.2, h.1⟩)
    subst hb
    rw [if_pos rfl]
    refine .bind_ (Q := fun _ d => d = d0) (.pure_ fun _ h => h) fun _ => ?_
    refine .bind_ (Q := fun _ d => ∃ n, d0.rename q (T.loc ++ [n]) = .ok d) ?_ fun _ => .pure_ fun _ h => h
    rw [hi.place]
    refine .try_ (R := fun e d => d = d0 ∧ (e = .fileExistsError → ∃ n, T.F n = some .fileExistsError)) ?_ fun e =>
      .ite_ (fun he => ?_) (fun _ => .throw_ fun _ h => h)
    · exact osRename_hoare T _ _ _ _ _ (fun d d' h hr => ⟨_, h ▸ hr⟩) (fun e d h _ h2 => ⟨h, h2⟩)
    · have hq' : T.place (q.getLast?.getD []) = T.loc ++ [nameOf q] := hq.place
      rw [hq']
      exact osRename_hoare T _ _ _ _ _ (fun d d' h hr => ⟨_, h.1 ▸ hr⟩) (fun e d h _ h2 => ⟨h.1, h2⟩)

end

/-- The link at `q` was moved to a place in the trash: `there` is what is at `q` now, and nothing else is different. -/
def Trashed (C : LinkEnv) (q : Path) (d0 : Disk Obj) (t : Str) (now : Option Obj) (d : Disk Obj) : Prop :=
  ∃ n, Apart q (C.trash.loc ++ [n]) ∧ d.at_ (C.trash.loc ++ [n]) = some (.link t) ∧ d.at_ q = now ∧
    ∀ r, ¬ q <+: r → ¬ C.trash.loc ++ [n] <+: r → d.at_ r = d0.at_ r

/-- Why the link is not written: the metadata cannot be encoded, the call fails for reasons of its own, or there is
something in the way. -/
def NotWritten (C : LinkEnv) (q : Path) (new : PathMeta) (d : Disk Obj) : Prop :=
  (∃ e, linkText C.env new (nameOf q) = .error e) ∨ (∃ n e, C.trash.F n = some e) ∨ ∃ t e, d.create q (.link t) = .error e

theorem writeLink_hoare (C : LinkEnv) (q : Path) (new : PathMeta) (P : Disk Obj → Prop) (Q : Disk Obj → Prop)
    (R : PyErr → Disk Obj → Prop)
    (hok : ∀ t d, P d → linkText C.env new (nameOf q) = .ok t → d.at_ q = none → Q (d.put q (.link t)))
    (herr : ∀ e d, P d → NotWritten C q new d → R e d) : Hoare P (C.writeLink q new) (fun _ => Q) R := by
  unfold LinkEnv.writeLink
  split
  · rename_i e he
    exact .throw_ fun d h => herr _ d h (.inl ⟨e, he⟩)
  · rename_i t ht
    refine .act_err (fun d d' h hc => ?_) (fun e d h h' => herr e d h ?_)
    rotate_left
    · rcases h' with ⟨n, hn⟩ | h'
      · exact .inr (.inl ⟨n, e, hn⟩)
      · exact .inr (.inr ⟨t, e, h'⟩)
    obtain ⟨h1, rfl⟩ := create_ok hc
    exact hok t d h ht h1

/-- Every run of the setter on a link that holds metadata. -/
theorem setMeta_hoare (C : LinkEnv) (q : Path) (new old : PathMeta) (d0 : Disk Obj) (t : Str) (hq : d0.at_ q = some (.link t))
    (hold : Symlink.fromSymlink (nameOf q) t false = .ok old) (hname : Nameable (nameOf q))
    (hid : ∀ i, idOf old = some i → Nameable (fsSafeId i))
    (htrash : C.trash.leads d0 C.trash.loc = true) (hF : ∀ n, C.trash.F n ≠ some .fileExistsError) :
    Hoare (fun d => d = d0) (C.setMeta q new)
      (fun _ d => (d = d0 ∧ replaceCheck C.env old new = .ok false) ∨
        replaceCheck C.env old new = .ok true ∧
        ∃ t', linkText C.env new (nameOf q) = .ok t' ∧ Trashed C q d0 t (some (.link t')) d)
      (fun _ d => d.at_ = d0.at_ ∨ replaceCheck C.env old new = .ok true ∧ Trashed C q d0 t none d ∧ NotWritten C q new d) := by
  unfold LinkEnv.setMeta
  refine .bind_ (Q := fun _ d => d = d0) (.look_ (fun _ _ h _ => h) (fun _ _ h => .inl (h ▸ rfl))) fun ex => ?_
  refine .ite_ (fun _ => .throw_ fun _ h => .inl (h ▸ rfl)) (fun _ => ?_)
  refine .bind_ (Q := fun il d => d = d0 ∧ il = true) (.look_ ?_ (fun _ _ h => .inl (h ▸ rfl))) fun il => ?_
  · rintro d a rfl h
    simp only [isLink, hq, Except.ok.injEq] at h
    exact ⟨rfl, h.symm⟩
  refine Hoare.pre (P := fun d => il = true ∧ d = d0) (.of_pre fun hb => ?_) (fun d h => ⟨h.2, h.1⟩)
  subst hb
  rw [if_pos rfl]
  refine .bind_ (Q := fun o d => o = old ∧ d = d0) (.look_ ?_ (fun _ _ h => .inl (h ▸ rfl))) fun o => ?_
  · rintro d a rfl h
    simp only [LinkEnv.getMeta, hq] at h
    split at h
    · simp at h
    · rw [hold] at h
      simp only [Except.ok.injEq] at h
      exact ⟨h.symm, rfl⟩
  refine .of_pre fun ho => ?_
  subst ho
  split
  · exact .throw_ fun _ h => .inl (h ▸ rfl)
  · rename_i hr
    exact .pure_ fun _ h => .inl ⟨h, hr⟩
  · rename_i hr
    refine .bind_ (Q := fun _ d => Trashed C q d0 t none d ∨ d = d0) ?_ fun _ => ?_
    · refine .try_ (R := fun e d => d = d0 ∧ e ≠ .fileExistsError) ?_ fun e => .ite_ (fun he => ?_) (fun _ => .throw_ fun _ h => .inl (h.1 ▸ rfl))
      · cases hi : idOf o with
        | none => exact .bind_ (Q := fun _ _ => False) (.throw_ fun d h => ⟨h, by simp⟩) fun _ => fun s hs => hs.elim
        | some i =>
          refine .bind_ (Q := fun _ d => ∃ n, d0.rename q (C.trash.loc ++ [n]) = .ok d) ?_ fun _ => .pure_ ?_
          · refine (crumple_there C.trash (hid i hi) hname htrash).mono (fun _ h => h) (fun _ _ h => h) ?_
            rintro e d ⟨h1, h2⟩
            refine ⟨h1, fun he => ?_⟩
            obtain ⟨n, hn⟩ := h2 he
            exact hF n hn
          · rintro d ⟨n, hn⟩
            obtain ⟨-, ⟨-, rfl⟩ | ⟨hap, hm⟩⟩ := rename_ok hn
            · exact .inr rfl
            · refine .inl ⟨n, hap, ?_, ?_, ?_⟩
              · rw [hm, mv, if_pos (List.prefix_refl _), List.drop_length, List.append_nil, hq]
              · rw [hm, mv, if_neg hap.2, if_pos (List.prefix_refl _)]
              · intro r h1 h2
                rw [hm, mv, if_neg h2, if_neg h1]
      · exact fun s hs => absurd he hs.2
    · refine writeLink_hoare C q new _ _ _ ?_ ?_
      · rintro t' d (⟨n, h1, h2, h3, h4⟩ | rfl) ht' hn
        · right
          refine ⟨hr, t', ht', n, h1, ?_, ?_, ?_⟩
          · rw [Disk.at_put, if_neg (fun he : _ = q => h1.1 (he ▸ List.prefix_refl _)), h2]
          · rw [Disk.at_put, if_pos rfl]
          · intro r hr1 hr2
            rw [Disk.at_put, if_neg (fun he : r = q => hr1 (he ▸ List.prefix_refl _)), h4 r hr1 hr2]
        · rw [hq] at hn; simp at hn
      · rintro e d (h | rfl) hw
        · exact .inr ⟨hr, h, hw⟩
        · exact .inl rfl

end Verif.Cache
