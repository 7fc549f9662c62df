import Verif.Model.Race
import Verif.Lemmas.Primary
import Verif.Lemmas.Decide

/-! # C126: several processes fetch the same file at the same time -/

namespace Verif.Race
open Verif.Cache

/-! ## Content that is being written -/

/-- Each byte is right, or there is a writer that has not come to it yet. -/
def Covered (data x : Bytes) (O : Nat → Prop) : Prop :=
  x.length ≤ data.length ∧ ∀ i, i < data.length → x[i]? = data[i]? ∨ ∃ o, O o ∧ o ≤ i

theorem Covered.full {data x : Bytes} {O : Nat → Prop} (h : Covered data x O) (hO : ∀ o, O o → data.length ≤ o) : x = data := by
  apply List.ext_getElem?
  intro i
  by_cases hi : i < data.length
  · rcases h.2 i hi with e | ⟨o, ho, hle⟩
    · exact e
    · have := hO o ho; omega
  · rw [List.getElem?_eq_none (by have := h.1; omega), List.getElem?_eq_none (by omega)]

theorem Covered.mono {data x : Bytes} {O O' : Nat → Prop} (h : Covered data x O) (hO : ∀ o, O o → o < data.length → O' o) : Covered data x O' :=
  ⟨h.1, fun i hi => (h.2 i hi).imp id fun ⟨o, ho, hle⟩ => ⟨o, hO o ho (by omega), hle⟩⟩

theorem Covered.empty {data : Bytes} {O : Nat → Prop} (h : O 0) : Covered data [] O := ⟨by simp, fun i _ => .inr ⟨0, h, by omega⟩⟩

theorem writeAt_get (x : Bytes) (o : Nat) (b : Bytes) (i : Nat) :
    (writeAt x o b)[i]? = if i < o then (if i < x.length then x[i]? else some 0) else if i < o + b.length then b[i - o]? else x[i]? := by
  unfold writeAt
  have hl : (x.take o ++ List.replicate (o - x.length) 0).length = o := by simp; omega
  rw [List.append_assoc, List.getElem?_append]
  rw [hl]
  by_cases h1 : i < o
  · simp only [h1, if_true]
    rw [List.getElem?_append]
    by_cases h2 : i < x.length
    · have : i < (x.take o).length := by simp; omega
      rw [if_pos this, if_pos h2, List.getElem?_take, if_pos h1]
    · have : ¬ i < (x.take o).length := by simp; omega
      rw [if_neg this, if_neg h2, List.getElem?_replicate, if_pos (by simp; omega)]
  · simp only [h1, if_false]
    rw [List.getElem?_append]
    by_cases h2 : i < o + b.length
    · rw [if_pos (by omega), if_pos h2]
    · rw [if_neg (by omega), if_neg h2, List.getElem?_drop]
      congr 1; omega

theorem writeAt_length (x : Bytes) (o : Nat) (b : Bytes) (n : Nat) (hx : x.length ≤ n) (ho : o + b.length ≤ n) : (writeAt x o b).length ≤ n := by
  simp [writeAt]; omega

theorem Covered.write {data x : Bytes} {O O' : Nat → Prop} (h : Covered data x O) {o : Nat} {b : Bytes} (hb : o + b.length ≤ data.length)
    (hd : b = (data.drop o).take b.length) (hO : ∀ o', O o' → o' ≠ o → O' o') (hn : O' (o + b.length)) : Covered data (writeAt x o b) O' := by
  refine ⟨writeAt_length x o b _ h.1 hb, fun i hi => ?_⟩
  rw [writeAt_get]
  by_cases h1 : i < o
  · rcases h.2 i hi with e | ⟨o', ho', hle⟩
    · rw [if_pos h1, if_pos]
      · exact .inl e
      · by_cases h2 : i < x.length
        · exact h2
        · rw [List.getElem?_eq_none (by omega), List.getElem?_eq_getElem hi] at e; exact absurd e (by simp)
    · exact .inr ⟨o', hO o' ho' (by omega), hle⟩
  · rw [if_neg h1]
    by_cases h2 : i < o + b.length
    · left
      rw [if_pos h2, hd, List.getElem?_take, if_pos (by omega), List.getElem?_drop]
      congr 1; omega
    · rw [if_neg h2]
      exact .inr ⟨o + b.length, hn, by omega⟩

/-! ## What a process may do next -/

/-- The errors are a tuple. -/
def Proper (m : Meta) : Prop := ∃ l, m .errors = .strs l

/-- The stages of a process. -/
inductive St where
  | idle
  /-- it has removed what was there, and is going to create a file -/
  | touching
  /-- it has moved what was there to the trash, and is going to create a symlink -/
  | linking
  /-- it has created a file, and is going to open it; whether it has seen metadata on it -/
  | leading (seen : Bool)
  | writing (h : Handle)

def ProperO (o : Option Meta) : Prop := ∀ m, o = some m → Proper m
def ProperX (r : Except PyErr (Option Meta)) : Prop := ∀ o, r = .ok o → ProperO o

/-- Whether there is metadata (`bool(meta)`). -/
def Has (o : Option Meta) : Prop := ∃ m, o = some m ∧ metaBool m = true

inductive Ok (data : Bytes) : St → Proc → Prop
  | ret (r) : Ok data .idle (.ret r)
  | exists_ {k} (h : ∀ b, Ok data .idle (k b)) : Ok data .idle (.exists_ k)
  | isSymlink {k} (h : ∀ b, Ok data .idle (k b)) : Ok data .idle (.isSymlink k)
  | xattrs {k} (h : ∀ r, ProperX r → Ok data .idle (k r)) : Ok data .idle (.xattrs k)
  | setxattr {f v k} (hv : v ≠ .none) (he : v.emptyIterable = false) (hp : f = .errors → ∃ l, v = .strs l) (h : ∀ r, Ok data .idle (k r)) :
      Ok data .idle (.setxattr f v k)
  | readlink {k} (h : ∀ r, (∀ m, r = .ok m → Proper m) → Ok data .idle (k r)) : Ok data .idle (.readlink k)
  | unlink {k} (h : Ok data .touching (k (.ok ()))) (he : ∀ e, Ok data .idle (k (.error e))) : Ok data .idle (.unlink k)
  | away {k} (h : Ok data .linking (k (.ok ()))) (he : ∀ e, Ok data .idle (k (.error e))) : Ok data .idle (.away k)
  | symlink {m k} (hp : Proper m) (h : ∀ r, Ok data .idle (k r)) : Ok data .idle (.symlink m k)
  | link {m k} (hp : Proper m) (h : ∀ r, Ok data .idle (k r)) : Ok data .linking (.symlink m k)
  | utime {k} (h : Ok data .touching (k false)) (he : Ok data .idle (k true)) : Ok data .touching (.utime k)
  | creat {k} (h : Ok data (.leading false) (k (.ok ()))) (he : ∀ e, Ok data .idle (k (.error e))) : Ok data .touching (.creat k)
  | openW {k} (h : ∀ j, Ok data (.writing ⟨j, 0⟩) (k (.ok ⟨j, 0⟩))) (he : ∀ e, Ok data .idle (k (.error e))) : Ok data .idle (.openW k)
  | write {h b k} (hl : h.off + b.length ≤ data.length) (hb : b = (data.drop h.off).take b.length)
      (hk : Ok data (.writing ⟨h.file, h.off + b.length⟩) (k ⟨h.file, h.off + b.length⟩)) : Ok data (.writing h) (.write h b k)
  | wrote {h p} (hl : h.off = data.length) (hp : Ok data .idle p) : Ok data (.writing h) p
  | size {k} (h : ∀ r, Ok data .idle (k r)) : Ok data .idle (.size k)
  | content {k} (h : ∀ r, Ok data .idle (k r)) : Ok data .idle (.content k)
  | lexists {s k} (h : Ok data (.leading s) (k true)) (he : Ok data .idle (k false)) : Ok data (.leading s) (.exists_ k)
  | lsymlink {s k} (h : Ok data (.leading s) (k false)) (he : Ok data .idle (k true)) : Ok data (.leading s) (.isSymlink k)
  | lxattrs {s k} (h : ∀ o, ProperO o → ¬ Has o → s = false → Ok data (.leading false) (k (.ok o)))
      (h' : ∀ o, ProperO o → Has o → Ok data (.leading true) (k (.ok o)))
      (he : ∀ r, ProperX r → Ok data .idle (k r)) : Ok data (.leading s) (.xattrs k)
  | lsetxattr {s f v k} (hv : v ≠ .none) (he : v.emptyIterable = false) (hp : f = .errors → ∃ l, v = .strs l)
      (h : Ok data (.leading s) (k (.ok ()))) (he : ∀ e, Ok data .idle (k (.error e))) : Ok data (.leading s) (.setxattr f v k)
  | lopenW {s k} (h : ∀ j, Ok data (.writing ⟨j, 0⟩) (k (.ok ⟨j, 0⟩))) (he : ∀ e, Ok data .idle (k (.error e))) :
      Ok data (.leading s) (.openW k)

variable {data : Bytes}

theorem stored_of {m : Meta} (hm : Proper m) {f : Field} (h : f ∈ storedFields m) :
    m f ≠ .none ∧ (m f).emptyIterable = false ∧ (f = .errors → ∃ l, m f = .strs l) := by
  simp [storedFields] at h
  exact ⟨h.2.1, h.2.2, fun e => e ▸ hm⟩

theorem ok_linkMeta {k} (h : ∀ r, ProperX r → Ok data .idle (k r)) : Ok data .idle (linkMeta k) := by
  unfold linkMeta
  refine .isSymlink fun b => ?_
  cases b
  · exact h _ (fun o ho => by cases ho)
  · refine .exists_ fun b => ?_
    cases b
    · refine .readlink fun r hr => ?_
      cases r with
      | error e => exact h _ (fun o ho => by cases ho)
      | ok m => exact h _ (fun o ho => by cases ho; intro m' hm'; cases hm'; exact hr _ rfl)
    · exact h _ (fun o ho => by cases ho)

theorem ok_readNone {k : Except PyErr (Option Meta) → Proc} (h : ∀ r, ProperX r → Ok data .idle (k r)) :
    Ok data .idle (Proc.isSymlink fun s => if s then
          linkMeta fun r => match r with
            | .error e => if e = .noCachedMetadataError then k (.ok none) else k (.error e)
            | .ok m => k (.ok m)
        else k (.ok none)) := by
  have hn : Ok data .idle (k (.ok none)) := h _ (fun o ho => by cases ho; intro m hm; cases hm)
  refine .isSymlink fun b => ?_
  cases b
  · exact hn
  · rw [if_pos rfl]
    refine ok_linkMeta fun r hr => ?_
    cases r with
    | error e =>
      dsimp only
      split
      · exact hn
      · exact h _ hr
    | ok m => exact h _ hr

theorem ok_readX {k : Except PyErr (Option Meta) → Proc} (h : ∀ r, ProperX r → Ok data .idle (k r)) (r : Except PyErr (Option Meta)) :
    ProperX r → Ok data .idle (match r with
            | .ok (some m) => k (.ok (if metaBool m then some m else none))
            | .ok none => k (.ok none)
            | .error e => k (.error e)) := by
  intro hr
  match r with
  | .error e => exact h _ hr
  | .ok none => exact h _ hr
  | .ok (some m) =>
    dsimp only
    split
    · exact h _ hr
    · exact h _ (fun o ho => by cases ho; intro m hm; cases hm)

theorem ok_readMeta {k} (h : ∀ r, ProperX r → Ok data .idle (k r)) : Ok data .idle (readMeta k) := by
  unfold readMeta
  refine .exists_ fun b => ?_
  cases b
  · exact ok_readNone h
  · refine .exists_ fun b => ?_
    cases b
    · exact h _ (fun o ho => by cases ho; intro m hm; cases hm)
    · exact .xattrs fun r hr => ok_readX h r hr

theorem ok_readMeta' {s : Bool} {k} (h0 : s = false → Ok data (.leading false) (k (.ok none)))
    (h1 : ∀ m, Proper m → metaBool m = true → Ok data (.leading true) (k (.ok (some m))))
    (h : ∀ r, ProperX r → Ok data .idle (k r)) : Ok data (.leading s) (readMeta k) := by
  unfold readMeta
  refine .lexists ?_ (ok_readNone h)
  refine .lexists ?_ (h _ (fun o ho => by cases ho; intro m hm; cases hm))
  refine .lxattrs (fun o ho hn hs => ?_) (fun o ho hy => ?_) (fun r hr => ok_readX h r hr)
  · match o with
    | none => exact h0 hs
    | some m =>
      dsimp only
      rw [if_neg (fun hm => hn ⟨m, rfl, hm⟩)]
      exact h0 hs
  · obtain ⟨m, rfl, hm⟩ := hy
    dsimp only
    rw [if_pos hm]
    exact h1 m (ho m rfl) hm

theorem ok_setAll {m : Meta} (hm : Proper m) {k} (h : ∀ r, Ok data .idle (k r)) : ∀ fs : List Field, (∀ f ∈ fs, f ∈ storedFields m) →
    Ok data .idle (setAll m k fs)
  | [], _ => h _
  | f :: fs, hf => by
    obtain ⟨a, b, c⟩ := stored_of hm (hf f (by simp))
    refine .setxattr a b c fun r => ?_
    cases r with
    | error e => exact h _
    | ok _ => exact ok_setAll hm h fs fun g hg => hf g (by simp [hg])

theorem ok_setAll' {s : Bool} {m : Meta} (hm : Proper m) {k} (h1 : Ok data (.leading s) (k (.ok ()))) (h : ∀ r, Ok data .idle (k r)) :
    ∀ fs : List Field, (∀ f ∈ fs, f ∈ storedFields m) → Ok data (.leading s) (setAll m k fs)
  | [], _ => h1
  | f :: fs, hf => by
    obtain ⟨a, b, c⟩ := stored_of hm (hf f (by simp))
    exact .lsetxattr a b c (ok_setAll' hm h1 h fs fun g hg => hf g (by simp [hg])) fun e => h _

theorem ok_eatSet {m : Meta} (hm : Proper m) {k} (h : ∀ r, Ok data .idle (k r)) : Ok data .idle (eatSet m k) := by
  unfold eatSet
  refine .exists_ fun b => ?_
  cases b
  · exact h _
  · refine .isSymlink fun b => ?_
    cases b
    · exact ok_setAll hm h _ fun f hf => hf
    · exact h _

theorem ok_crumple {k} (h : Ok data .linking (k (.ok ()))) (he : ∀ e, Ok data .idle (k (.error e))) : Ok data .idle (crumple k) := by
  unfold crumple
  refine ok_readMeta fun r _ => ?_
  match r with
  | .error e => exact he _
  | .ok none => exact he _
  | .ok (some _) =>
    refine ok_readMeta fun r _ => ?_
    match r with
    | .error e => exact he _
    | .ok none => exact he _
    | .ok (some m) =>
      dsimp only
      split
      · exact he _
      · exact .away h he

theorem ok_linkSet (E : Env) {m : Meta} (hm : Proper m) {k} (h : ∀ r, Ok data .idle (k r)) : Ok data .idle (linkSet E m k) := by
  unfold linkSet
  refine .exists_ fun b => ?_
  cases b
  · refine .isSymlink fun b => ?_
    cases b
    · exact .symlink hm h
    · rw [if_pos rfl]
      refine ok_linkMeta fun r _ => ?_
      match r with
      | .error e => exact h _
      | .ok none => exact h _
      | .ok (some old) =>
        dsimp only
        cases E.replace old m with
        | error e => exact h _
        | ok b => cases b
                  · exact h _
                  · exact ok_crumple (.link hm h) fun e => h _
  · exact h _

theorem ok_setRest (E : Env) {m : Meta} (hm : Proper m) {k} (h : ∀ r, Ok data .idle (k r)) :
    Ok data .idle (Proc.exists_ fun e => if e then eatSet m k else linkSet E m k) := by
  refine .exists_ fun b => ?_
  cases b
  · exact ok_linkSet E hm h
  · exact ok_eatSet hm h

theorem ok_setMeta (E : Env) {m : Meta} (hm : Proper m) {k} (h : ∀ r, Ok data .idle (k r)) : Ok data .idle (setMeta E m k) := by
  unfold setMeta
  dsimp only
  split
  · exact h _
  · refine .exists_ fun b => ?_
    cases b
    · exact ok_setRest E hm h
    · refine .isSymlink fun b => ?_
      cases b
      · exact ok_eatSet hm h
      · exact ok_setRest E hm h

theorem ok_setMeta' (E : Env) {s : Bool} {m : Meta} (hm : Proper m) {k} (h1 : Ok data (.leading s) (k (.ok ()))) (h : ∀ r, Ok data .idle (k r)) :
    Ok data (.leading s) (setMeta E m k) := by
  unfold setMeta
  dsimp only
  split
  · exact h1
  · refine .lexists (.lsymlink ?_ (ok_setRest E hm h)) (ok_setRest E hm h)
    unfold eatSet
    exact .lexists (.lsymlink (ok_setAll' hm h1 h _ fun f hf => hf) (h _)) (h _)

theorem ok_writeAll {k : Proc} (hk : Ok data .idle k) : ∀ (bs : List Bytes) (h : Handle), bs.flatten = data.drop h.off → h.off ≤ data.length →
    Ok data (.writing h) (writeAll k bs h)
  | [], h, hf, hl => .wrote (by have := congrArg List.length hf; simp at this; omega) hk
  | b :: bs, h, hf, hl => by
    have hlen : h.off + b.length ≤ data.length := by have := congrArg List.length hf; simp at this; omega
    refine .write hlen ?_ (ok_writeAll hk bs _ ?_ hlen)
    · rw [← hf]; simp
    · show bs.flatten = data.drop (h.off + b.length)
      rw [← List.drop_drop, ← hf]; simp

theorem proper_mark (m : Meta) (l : List Str) : Proper (mark m l) := ⟨l ++ [mismatch], by simp [mark, Verif.setField]⟩

theorem ok_checkSum (E : Env) (m : Meta) : Ok data .idle (checkSum E m) := by
  unfold checkSum
  split
  · exact .ret _
  · refine ok_readMeta fun r _ => ?_
    match r with
    | .error e => exact .ret _
    | .ok none => exact .ret _
    | .ok (some now) =>
      dsimp only
      cases E.cypher (now .checksum_cypher) with
      | error e => exact .ret _
      | ok h =>
        refine .content fun r => ?_
        cases r with
        | error e => exact .ret _
        | ok b =>
          dsimp only
          split
          · exact .ret _
          · split
            · split
              · refine ok_setMeta E (proper_mark _ _) fun r => ?_
                · cases r <;> exact .ret _
              · exact .ret _
            · exact .ret _
          · exact .ret _

theorem ok_checkSize (E : Env) (m : Meta) : Ok data .idle (checkSize E m) := by
  unfold checkSize
  refine .size fun r => ?_
  cases r with
  | error e => exact .ret _
  | ok n =>
    dsimp only
    split
    · exact ok_checkSum E m
    · exact .ret _

theorem ok_afterData {k : Proc} (hk : Ok data .idle k) : Ok data .idle (afterData k) := by
  unfold afterData
  refine ok_readMeta fun r _ => ?_
  match r with
  | .error e => exact .ret _
  | .ok none => exact .ret _
  | .ok (some _) =>
    refine ok_readMeta fun r _ => ?_
    match r with
    | .error e => exact .ret _
    | .ok none => exact .ret _
    | .ok (some _) =>
      refine ok_readMeta fun r _ => ?_
      match r with
      | .error e => exact .ret _
      | .ok none => exact .ret _
      | .ok (some _) => exact hk

theorem ok_setData {cs : List Bytes} (hc : cs ≠ []) (hd : cs.flatten = data) {k : Proc} (hk : Ok data .idle k) :
    Ok data .idle (setData cs k) ∧ ∀ s, Ok data (.leading s) (setData cs k) := by
  obtain ⟨b, bs, rfl⟩ := List.exists_cons_of_ne_nil hc
  have ho : ∀ j, Ok data (.writing ⟨j, 0⟩) (writeAll (afterData k) (b :: bs) ⟨j, 0⟩) := fun j =>
    ok_writeAll (ok_afterData hk) _ _ (by simpa using hd) (by simp)
  have hi : ∀ r : Except PyErr (Option Meta), ProperX r → Ok data .idle (match r with
    | .error e => .ret (.raised e)
    | .ok _ => .openW fun r => match r with
        | .error e => .ret (.raised e)
        | .ok h => writeAll (afterData k) (b :: bs) h) := fun r _ => by
    cases r with
    | error e => exact .ret _
    | ok _ => exact .openW ho fun e => .ret _
  exact ⟨ok_readMeta hi, fun s => ok_readMeta' (fun _ => .lopenW ho fun e => .ret _) (fun m _ _ => .lopenW ho fun e => .ret _) hi⟩

theorem ok_readId {k : Proc} (hk : Ok data .idle k) (hs : ∀ s, Ok data (.leading s) k) :
    Ok data .idle (readId k) ∧ Ok data (.leading false) (readId k) := by
  have h2 : ∀ r : Except PyErr (Option Meta), ProperX r → Ok data .idle (match r with
      | .error e => .ret (.raised e)
      | .ok none => .ret (.raised .attributeError)
      | .ok (some _) => k) := fun r _ => by
    match r with
    | .error e => exact .ret _
    | .ok none => exact .ret _
    | .ok (some _) => exact hk
  have h1 : ∀ r : Except PyErr (Option Meta), ProperX r → Ok data .idle (match r with
    | .error e => .ret (.raised e)
    | .ok none => k
    | .ok (some _) => readMeta fun r => match r with
      | .error e => .ret (.raised e)
      | .ok none => .ret (.raised .attributeError)
      | .ok (some _) => k) := fun r _ => by
    match r with
    | .error e => exact .ret _
    | .ok none => exact hk
    | .ok (some _) => exact ok_readMeta h2
  refine ⟨ok_readMeta h1, ok_readMeta' (fun _ => hs _) (fun m _ _ => ?_) h1⟩
  exact ok_readMeta' (fun h => by cases h) (fun m _ _ => hs _) h2

variable {cs : List Bytes}

theorem ok_download (E : Env) (hc : cs ≠ []) (hd : cs.flatten = data) (m : Meta) :
    Ok data .idle (download E cs m) ∧ Ok data (.leading false) (download E cs m) :=
  ok_readId (ok_setData hc hd (ok_checkSize E m)).1 (ok_setData hc hd (ok_checkSize E m)).2

theorem ok_makeFile (E : Env) (hc : cs ≠ []) (hd : cs.flatten = data) {m : Meta} (hm : Proper m) : Ok data .idle (makeFile E cs m) := by
  unfold makeFile
  have hi : ∀ r : Except PyErr Unit, Ok data .idle (match r with
        | .error e => .ret (.raised e)
        | .ok _ => download E cs m) := fun r => by
    cases r with
    | error e => exact .ret _
    | ok _ => exact (ok_download E hc hd m).1
  refine .unlink ?_ fun e => .ret _
  refine .utime ?_ (ok_setMeta E hm hi)
  exact .creat (ok_setMeta' E hm (ok_download E hc hd m).2 hi) fun e => .ret _

theorem ok_fetchWith (E : Env) (hc : cs ≠ []) (hd : cs.flatten = data) {m : Meta} (hm : Proper m) : Ok data .idle (fetchWith E cs m) := by
  unfold fetchWith
  split
  · exact .ret _
  · refine .isSymlink fun b => ?_
    cases b
    · exact (ok_download E hc hd m).1
    · refine .exists_ fun b => ?_
      cases b
      · exact ok_makeFile E hc hd hm
      · exact (ok_download E hc hd m).1

theorem ok_fetch (E : Env) (hc : cs ≠ []) (hd : cs.flatten = data) : Ok data .idle (fetch E cs) := by
  unfold fetch
  refine ok_readMeta fun r hr => ?_
  match r with
  | .error e => exact .ret _
  | .ok none => exact .ret _
  | .ok (some m) => exact ok_fetchWith E hc hd (hr _ rfl _ rfl)

/-! ## All processes together -/

def upd (σ : Nat → St) (n : Nat) (s : St) : Nat → St := fun j => if j = n then s else σ j

/-- The offsets at which file `j` is being written -/
def offs (σ : Nat → St) (j : Nat) : Nat → Prop := fun o => ∃ n, σ n = .writing ⟨j, o⟩

/-- The file is written, was there before, or its creator is going to open it. -/
def Cared (data : Bytes) (w0 w : World) (σ : Nat → St) (j : Nat) : Prop :=
  Covered data (w.node j).data (offs σ j) ∨ (w0.entry = .file j ∧ (w.node j).data = (w0.node j).data) ∨
    ∃ n s, σ n = .leading s ∧ (s = true → Has (w.node j).meta_)

structure WInv (data : Bytes) (w0 w : World) (σ : Nat → St) : Prop where
  link : ∀ m, w.entry = .link m → Proper m
  node : ∀ j, ProperO (w.node j).meta_
  inside : ∀ j, w.entry = .file j → j < w.next
  hands : ∀ n h, σ n = .writing h → h.file < w.next ∧ Covered data (w.node h.file).data (offs σ h.file)
  some_ : w.entry = .none → ∃ n, σ n = .touching ∨ σ n = .linking
  cared : ∀ j, w.entry = .file j → Cared data w0 w σ j

variable {w0 w : World} {σ : Nat → St} {n : Nat} {s' : St}

theorem upd_self : upd σ n s' n = s' := by simp [upd]
theorem upd_ne {k : Nat} (h : k ≠ n) : upd σ n s' k = σ k := by simp [upd, h]
theorem upd_same (h : σ n = s') : upd σ n s' = σ := by
  funext k; by_cases hk : k = n
  · subst hk; rw [upd_self, h]
  · rw [upd_ne hk]

theorem offs_upd {j : Nat} (hw : ∀ h, σ n = .writing h → s' = .writing h ∨ data.length ≤ h.off) :
    ∀ o, offs σ j o → o < data.length → offs (upd σ n s') j o := by
  rintro o ⟨k, hk⟩ ho
  by_cases hkn : k = n
  · subst hkn
    rcases hw _ hk with h | h
    · exact ⟨k, by rw [upd_self, h]⟩
    · simp at h; omega
  · exact ⟨k, by rw [upd_ne hkn, hk]⟩

/-- A call that changes nothing. -/
theorem WInv.keep (I : WInv data w0 w σ) (hw : ∀ h, σ n = .writing h → s' = .writing h ∨ data.length ≤ h.off)
    (hn : ∀ h, s' = .writing h → σ n = .writing h)
    (hc : w.entry = .none → σ n = .touching ∨ σ n = .linking → s' = .touching ∨ s' = .linking)
    (hl : ∀ j s, w.entry = .file j → σ n = .leading s → (s = true → Has (w.node j).meta_) → ∃ s'', s' = .leading s'' ∧ (s'' = true → Has (w.node j).meta_)) :
    WInv data w0 w (upd σ n s') := by
  refine ⟨I.link, I.node, I.inside, fun k h hk => ?_, fun he => ?_, fun j hj => ?_⟩
  · by_cases hkn : k = n
    · subst hkn
      rw [upd_self] at hk
      obtain ⟨a, b⟩ := I.hands k h (hn h hk)
      exact ⟨a, b.mono (offs_upd hw)⟩
    · rw [upd_ne hkn] at hk
      obtain ⟨a, b⟩ := I.hands k h hk
      exact ⟨a, b.mono (offs_upd hw)⟩
  · obtain ⟨k, hk⟩ := I.some_ he
    by_cases hkn : k = n
    · subst hkn; exact ⟨k, by rw [upd_self]; exact hc he hk⟩
    · exact ⟨k, by rw [upd_ne hkn]; exact hk⟩
  · rcases I.cared j hj with h | h | ⟨k, s, hk, hs⟩
    · exact .inl (h.mono (offs_upd hw))
    · exact .inr (.inl h)
    · by_cases hkn : k = n
      · subst hkn
        obtain ⟨s'', e, hh⟩ := hl j s hj hk hs
        exact .inr (.inr ⟨k, s'', by rw [upd_self, e], hh⟩)
      · exact .inr (.inr ⟨k, s, by rw [upd_ne hkn]; exact hk, hs⟩)

theorem Has.set {o : Option Meta} (h : Has o) {f : Field} {v : PyVal} (hv : v ≠ .none) (he : v.emptyIterable = false)
    (hp : f = .errors → ∃ l, v = .strs l) : Has (some (Verif.setField (o.getD blank) f v)) := by
  obtain ⟨m, rfl, hm⟩ := h
  refine ⟨_, rfl, ?_⟩
  simp only [metaBool, List.any_eq_true] at hm ⊢
  refine ⟨f, mem_all f, ?_⟩
  simp only [Verif.setField, if_true]
  split
  · rename_i hf
    obtain ⟨l, rfl⟩ := hp hf
    simpa [PyVal.emptyIterable, PyVal.truthy] using he
  · simpa using hv

/-- An attribute is set. -/
theorem WInv.field (I : WInv data w0 w σ) {i : Nat} {f : Field} {v : PyVal} (hv : v ≠ .none) (he : v.emptyIterable = false)
    (hp : f = .errors → ∃ l, v = .strs l) : WInv data w0 (w.setField i f v) σ := by
  have hd : ∀ j, ((w.setField i f v).node j).data = (w.node j).data := fun j => by
    simp only [World.setField]; split
    · rename_i h; rw [h]
    · rfl
  have hm : ∀ j, Has (w.node j).meta_ → Has ((w.setField i f v).node j).meta_ := fun j h => by
    simp only [World.setField]; split
    · rename_i hj; subst hj; exact h.set hv he hp
    · exact h
  refine ⟨I.link, fun j => ?_, I.inside, fun n h hn => ?_, I.some_, fun j hj => ?_⟩
  · simp only [World.setField]; split
    · intro m hm
      cases hm
      by_cases hf : f = .errors
      · obtain ⟨l, rfl⟩ := hp hf
        exact ⟨l, by simp [Verif.setField, hf]⟩
      · have : Proper ((w.node i).meta_.getD blank) := by
          cases h : (w.node i).meta_ with
          | none => exact ⟨[], rfl⟩
          | some m => exact I.node i m h
        obtain ⟨l, hl⟩ := this
        exact ⟨l, by simp only [Verif.setField]; rw [if_neg (fun e => hf e.symm)]; exact hl⟩
    · exact I.node j
  · rw [hd]; exact I.hands n h hn
  · rcases I.cared j hj with h | h | ⟨k, s, hk, hs⟩
    · exact .inl (by rw [hd]; exact h)
    · exact .inr (.inl (by rw [hd]; exact h))
    · exact .inr (.inr ⟨k, s, hk, fun e => hm j (hs e)⟩)

/-- What was there is removed or moved. -/
theorem WInv.gone (I : WInv data w0 w σ) (hi : σ n = .idle) (hs : s' = .touching ∨ s' = .linking) :
    WInv data w0 { w with entry := .none } (upd σ n s') := by
  have hw : ∀ h, σ n = .writing h → s' = .writing h ∨ data.length ≤ h.off := fun h e => by rw [hi] at e; cases e
  refine ⟨fun m hm => (by cases hm), I.node, fun j hj => (by cases hj), fun k h hk => ?_, fun _ => ⟨n, by rw [upd_self]; exact hs⟩, fun j hj => by cases hj⟩
  by_cases hkn : k = n
  · subst hkn; rw [upd_self] at hk; rcases hs with e | e <;> rw [e] at hk <;> cases hk
  · rw [upd_ne hkn] at hk
    obtain ⟨a, b⟩ := I.hands k h hk
    exact ⟨a, b.mono (offs_upd hw)⟩

/-- A symlink is created. -/
theorem WInv.linked (I : WInv data w0 w σ) (hn : ∀ h, σ n ≠ .writing h) {m : Meta} (hm : Proper m) :
    WInv data w0 { w with entry := .link m } (upd σ n .idle) := by
  have hw : ∀ h, σ n = .writing h → St.idle = .writing h ∨ data.length ≤ h.off := fun h e => absurd e (hn h)
  refine ⟨fun m' h => by cases h; exact hm, I.node, fun j hj => (by cases hj), fun k h hk => ?_, fun he => (by cases he), fun j hj => by cases hj⟩
  by_cases hkn : k = n
  · subst hkn; rw [upd_self] at hk; cases hk
  · rw [upd_ne hkn] at hk
    obtain ⟨a, b⟩ := I.hands k h hk
    exact ⟨a, b.mono (offs_upd hw)⟩

theorem make_node {w : World} {j : Nat} (h : j < w.next) : w.make.node j = w.node j := by
  simp only [World.make]; rw [if_neg (by omega)]

/-- A file is created. -/
theorem WInv.made (I : WInv data w0 w σ) (hn : ∀ h, σ n ≠ .writing h) (hs : s' = .leading false ∨ s' = .writing ⟨w.next, 0⟩) :
    WInv data w0 w.make (upd σ n s') := by
  have hw : ∀ h, σ n = .writing h → s' = .writing h ∨ data.length ≤ h.off := fun h e => absurd e (hn h)
  have hnew : w.make.node w.next = ⟨[], none⟩ := by simp [World.make]
  refine ⟨fun m' h => (by cases h), fun j => ?_, fun j hj => ?_, fun k h hk => ?_, fun he => (by cases he), fun j hj => ?_⟩
  · by_cases hj : j = w.next
    · subst hj; rw [hnew]; intro m hm; cases hm
    · simp only [World.make]; rw [if_neg hj]; exact I.node j
  · cases hj; simp only [World.make]; omega
  · by_cases hkn : k = n
    · subst hkn; rw [upd_self] at hk
      rcases hs with e | e
      · rw [e] at hk; cases hk
      · rw [e] at hk; cases hk
        refine ⟨by simp only [World.make]; omega, ?_⟩
        show Covered data (w.make.node w.next).data _
        rw [hnew]
        exact .empty ⟨k, by rw [upd_self, e]⟩
    · rw [upd_ne hkn] at hk
      obtain ⟨a, b⟩ := I.hands k h hk
      refine ⟨by simp only [World.make]; omega, ?_⟩
      rw [make_node a]
      exact b.mono (offs_upd hw)
  · cases hj
    rcases hs with e | e
    · exact .inr (.inr ⟨n, false, by rw [upd_self, e], fun h => by cases h⟩)
    · refine .inl ?_
      show Covered data (w.make.node w.next).data _
      rw [hnew]
      exact .empty ⟨n, by rw [upd_self, e]⟩

/-- A file is opened. -/
theorem WInv.opened (I : WInv data w0 w σ) (hn : ∀ h, σ n ≠ .writing h) {i : Nat} (he : w.entry = .file i) :
    WInv data w0 (w.setData i []) (upd σ n (.writing ⟨i, 0⟩)) := by
  have hw : ∀ h, σ n = .writing h → St.writing ⟨i, 0⟩ = .writing h ∨ data.length ≤ h.off := fun h e => absurd e (hn h)
  have hc : Covered data ((w.setData i []).node i).data (offs (upd σ n (.writing ⟨i, 0⟩)) i) := by
    simp only [World.setData, if_true]
    exact .empty ⟨n, upd_self⟩
  refine ⟨I.link, fun j => ?_, I.inside, fun k h hk => ?_, fun h => ?_, fun j hj => ?_⟩
  · simp only [World.setData]; split
    · exact I.node i
    · exact I.node j
  · by_cases hkn : k = n
    · subst hkn; rw [upd_self] at hk; cases hk
      exact ⟨I.inside i he, hc⟩
    · rw [upd_ne hkn] at hk
      obtain ⟨a, b⟩ := I.hands k h hk
      refine ⟨a, ?_⟩
      by_cases hi : h.file = i
      · rw [hi]; exact hc
      · simp only [World.setData]; rw [if_neg hi]; exact b.mono (offs_upd hw)
  · have : w.entry = .none := h
    rw [he] at this; cases this
  · have : w.entry = .file j := hj
    rw [he] at this; cases this
    exact .inl hc

/-- A chunk is written. -/
theorem WInv.wrote (I : WInv data w0 w σ) {h : Handle} (hn : σ n = .writing h) {b : Bytes} (hl : h.off + b.length ≤ data.length)
    (hb : b = (data.drop h.off).take b.length) :
    WInv data w0 (w.setData h.file (writeAt (w.node h.file).data h.off b)) (upd σ n (.writing ⟨h.file, h.off + b.length⟩)) := by
  obtain ⟨hlt, hcov⟩ := I.hands n h hn
  have hc : Covered data ((w.setData h.file (writeAt (w.node h.file).data h.off b)).node h.file).data
      (offs (upd σ n (.writing ⟨h.file, h.off + b.length⟩)) h.file) := by
    simp only [World.setData, if_true]
    refine hcov.write hl hb (fun o ⟨k, hk⟩ ho => ⟨k, ?_⟩) ⟨n, upd_self⟩
    rw [upd_ne, hk]
    rintro rfl
    rw [hn] at hk; exact ho (congrArg Handle.off (St.writing.inj hk)).symm
  have ho : ∀ j, j ≠ h.file → ∀ o, offs σ j o → o < data.length → offs (upd σ n (.writing ⟨h.file, h.off + b.length⟩)) j o := by
    rintro j hj o ⟨k, hk⟩ _
    refine ⟨k, ?_⟩
    rw [upd_ne, hk]
    rintro rfl
    rw [hn] at hk; exact hj (congrArg Handle.file (St.writing.inj hk)).symm
  refine ⟨I.link, fun j => ?_, I.inside, fun k g hk => ?_, fun he => ?_, fun j hj => ?_⟩
  · simp only [World.setData]; split
    · exact I.node _
    · exact I.node j
  · have hg : g.file < w.next ∧ Covered data (w.node g.file).data (offs σ g.file) := by
      by_cases hkn : k = n
      · subst hkn; rw [upd_self] at hk; cases hk; exact ⟨hlt, hcov⟩
      · rw [upd_ne hkn] at hk; exact I.hands k g hk
    refine ⟨hg.1, ?_⟩
    by_cases hi : g.file = h.file
    · rw [hi]; exact hc
    · simp only [World.setData]; rw [if_neg hi]; exact hg.2.mono (ho _ hi)
  · obtain ⟨k, hk⟩ := I.some_ he
    refine ⟨k, ?_⟩
    rw [upd_ne]; · exact hk
    rintro rfl; rw [hn] at hk; rcases hk with e | e <;> cases e
  · by_cases hi : j = h.file
    · rw [hi]; exact .inl hc
    · rcases I.cared j hj with c | c | ⟨k, s, hk, hs⟩
      · refine .inl ?_; simp only [World.setData]; rw [if_neg hi]; exact c.mono (ho _ hi)
      · refine .inr (.inl ?_); simp only [World.setData]; rw [if_neg hi]; exact c
      · refine .inr (.inr ⟨k, s, ?_, ?_⟩)
        · rw [upd_ne]; · exact hk
          rintro rfl; rw [hn] at hk; cases hk
        · simp only [World.setData]; rw [if_neg hi]; exact hs

theorem upd_upd {s : St} : upd (upd σ n s) n s' = upd σ n s' := by
  funext k; by_cases hk : k = n <;> simp [upd, hk]

/-- One call keeps the invariant. -/
theorem WInv.step (I : WInv data w0 w σ) {p : Proc} (hp : Ok data (σ n) p) :
    ∃ s', Ok data s' (p.step w).2 ∧ WInv data w0 (p.step w).1 (upd σ n s') := by
  generalize hσ : σ n = s at hp
  induction hp generalizing σ with
  | ret r => exact ⟨_, .ret r, by rw [upd_same hσ]; exact I⟩
  | exists_ h => exact ⟨_, h _, by rw [upd_same hσ]; exact I⟩
  | isSymlink h => exact ⟨_, h _, by rw [upd_same hσ]; exact I⟩
  | xattrs h =>
    refine ⟨_, h _ ?_, by rw [upd_same hσ]; exact I⟩
    split
    · intro o ho; cases ho; exact I.node _
    · intro o ho; cases ho
  | @setxattr f v k hv he hp h =>
    refine ⟨.idle, ?_, ?_⟩
    · cases hent : w.entry <;> simp only [Proc.step, hent] <;> exact h _
    · rw [upd_same hσ]
      cases hent : w.entry <;> simp only [Proc.step, hent]
      · exact I
      · exact I
      · exact I.field hv he hp
  | readlink h =>
    refine ⟨_, h _ ?_, by rw [upd_same hσ]; exact I⟩
    split
    · rename_i m hm; intro m' ho; cases ho; exact I.link _ hm
    · intro o ho; cases ho
    · intro o ho; cases ho
  | @unlink k h he =>
    cases hent : w.entry with
    | none => exact ⟨.idle, by simp only [Proc.step, hent]; exact he _, by simp only [Proc.step, hent]; rw [upd_same hσ]; exact I⟩
    | link m => exact ⟨.touching, by simp only [Proc.step, hent]; exact h, by simp only [Proc.step, hent]; exact I.gone hσ (.inl rfl)⟩
    | file j => exact ⟨.touching, by simp only [Proc.step, hent]; exact h, by simp only [Proc.step, hent]; exact I.gone hσ (.inl rfl)⟩
  | @away k h he =>
    cases hent : w.entry with
    | none => exact ⟨.idle, by simp only [Proc.step, hent]; exact he _, by simp only [Proc.step, hent]; rw [upd_same hσ]; exact I⟩
    | link m => exact ⟨.linking, by simp only [Proc.step, hent]; exact h, by simp only [Proc.step, hent]; exact I.gone hσ (.inr rfl)⟩
    | file j => exact ⟨.linking, by simp only [Proc.step, hent]; exact h, by simp only [Proc.step, hent]; exact I.gone hσ (.inr rfl)⟩
  | @symlink m k hp h =>
    have hn : ∀ g, σ n ≠ .writing g := fun g e => by rw [hσ] at e; cases e
    refine ⟨.idle, ?_, ?_⟩
    · cases hent : w.entry <;> simp only [Proc.step, hent] <;> exact h _
    · cases hent : w.entry <;> simp only [Proc.step, hent]
      · exact I.linked hn hp
      · rw [upd_same hσ]; exact I
      · rw [upd_same hσ]; exact I
  | @link m k hp h =>
    have hn : ∀ g, σ n ≠ .writing g := fun g e => by rw [hσ] at e; cases e
    refine ⟨.idle, ?_, ?_⟩
    · cases hent : w.entry <;> simp only [Proc.step, hent] <;> exact h _
    · have hk : w.entry ≠ .none → WInv data w0 w (upd σ n .idle) := fun hne =>
        I.keep (fun g e => absurd e (hn g)) (fun g e => by cases e) (fun e => absurd e hne) (fun j s _ e => by rw [hσ] at e; cases e)
      cases hent : w.entry <;> simp only [Proc.step, hent]
      · exact I.linked hn hp
      · exact hk fun e => by rw [hent] at e; cases e
      · exact hk fun e => by rw [hent] at e; cases e
  | @utime k h he =>
    have hn : ∀ g, σ n ≠ .writing g := fun g e => by rw [hσ] at e; cases e
    cases hent : w.entry with
    | file j =>
      refine ⟨.idle, by simp only [Proc.step, hent]; exact he, ?_⟩
      exact I.keep (fun g e => absurd e (hn g)) (fun g e => by cases e) (fun e => by rw [hent] at e; cases e) (fun j s _ e => by rw [hσ] at e; cases e)
    | none => exact ⟨.touching, by simp only [Proc.step, hent]; exact h, by rw [upd_same hσ]; exact I⟩
    | link m => exact ⟨.touching, by simp only [Proc.step, hent]; exact h, by rw [upd_same hσ]; exact I⟩
  | @creat k h he =>
    have hn : ∀ g, σ n ≠ .writing g := fun g e => by rw [hσ] at e; cases e
    cases hent : w.entry with
    | file j =>
      refine ⟨.leading false, by simp only [Proc.step, hent]; exact h, ?_⟩
      simp only [Proc.step, hent]
      exact I.keep (fun g e => absurd e (hn g)) (fun g e => by cases e) (fun e => by rw [hent] at e; cases e) (fun j s _ e => by rw [hσ] at e; cases e)
    | none => exact ⟨.leading false, by simp only [Proc.step, hent]; exact h, by simp only [Proc.step, hent]; exact I.made hn (.inl rfl)⟩
    | link m =>
      refine ⟨.idle, by simp only [Proc.step, hent]; exact he _, ?_⟩
      simp only [Proc.step, hent]
      exact I.keep (fun g e => absurd e (hn g)) (fun g e => by cases e) (fun e => by rw [hent] at e; cases e) (fun j s _ e => by rw [hσ] at e; cases e)
  | @openW k h he =>
    have hn : ∀ g, σ n ≠ .writing g := fun g e => by rw [hσ] at e; cases e
    cases hent : w.entry with
    | file j => exact ⟨.writing ⟨j, 0⟩, by simp only [Proc.step, hent]; exact h j, by simp only [Proc.step, hent]; exact I.opened hn hent⟩
    | none => exact ⟨.writing ⟨w.next, 0⟩, by simp only [Proc.step, hent]; exact h _, by simp only [Proc.step, hent]; exact I.made hn (.inr rfl)⟩
    | link m => exact ⟨.idle, by simp only [Proc.step, hent]; exact he _, by simp only [Proc.step, hent]; rw [upd_same hσ]; exact I⟩
  | @write h b k hl hb hk ih => exact ⟨_, hk, I.wrote hσ hl hb⟩
  | @wrote h p hl hp ih =>
    have I' : WInv data w0 w (upd σ n .idle) := by
      refine I.keep (fun g e => .inr ?_) (fun g e => by cases e) (fun _ e => ?_) (fun j s _ e => ?_)
      · rw [hσ] at e; cases e; omega
      · rw [hσ] at e; rcases e with e | e <;> cases e
      · rw [hσ] at e; cases e
    obtain ⟨s', a, b⟩ := ih I' upd_self
    exact ⟨s', a, by rw [upd_upd] at b; exact b⟩
  | size h => exact ⟨_, h _, by rw [upd_same hσ]; exact I⟩
  | content h => exact ⟨_, h _, by rw [upd_same hσ]; exact I⟩
  | @lexists s k h he =>
    have hn : ∀ g, σ n ≠ .writing g := fun g e => by rw [hσ] at e; cases e
    have hq : (∀ j, w.entry ≠ .file j) → WInv data w0 w (upd σ n .idle) := fun hj =>
      I.keep (fun g e => absurd e (hn g)) (fun g e => by cases e) (fun _ e => by rw [hσ] at e; rcases e with e | e <;> cases e) (fun j s e _ => absurd e (hj j))
    cases hent : w.entry with
    | file j => exact ⟨.leading s, by simp only [Proc.step, hent]; exact h, by rw [upd_same hσ]; exact I⟩
    | none => exact ⟨.idle, by simp only [Proc.step, hent]; exact he, hq fun j e => by rw [hent] at e; cases e⟩
    | link m => exact ⟨.idle, by simp only [Proc.step, hent]; exact he, hq fun j e => by rw [hent] at e; cases e⟩
  | @lsymlink s k h he =>
    have hn : ∀ g, σ n ≠ .writing g := fun g e => by rw [hσ] at e; cases e
    have hq : (∀ j, w.entry ≠ .file j) → WInv data w0 w (upd σ n .idle) := fun hj =>
      I.keep (fun g e => absurd e (hn g)) (fun g e => by cases e) (fun _ e => by rw [hσ] at e; rcases e with e | e <;> cases e) (fun j s e _ => absurd e (hj j))
    cases hent : w.entry with
    | file j => exact ⟨.leading s, by simp only [Proc.step, hent]; exact h, by rw [upd_same hσ]; exact I⟩
    | none => exact ⟨.leading s, by simp only [Proc.step, hent]; exact h, by rw [upd_same hσ]; exact I⟩
    | link m => exact ⟨.idle, by simp only [Proc.step, hent]; exact he, hq fun j e => by rw [hent] at e; cases e⟩
  | @lxattrs s k h h' he =>
    have hn : ∀ g, σ n ≠ .writing g := fun g e => by rw [hσ] at e; cases e
    have hno : ∀ s' : St, (∀ g, s' ≠ .writing g) → (∀ j, w.entry = .file j → (∃ s'', s' = .leading s'' ∧ (s'' = true → Has (w.node j).meta_)) ∨ ¬ (s = true → Has (w.node j).meta_)) →
        WInv data w0 w (upd σ n s') := fun s' hs' hh =>
      I.keep (fun g e => absurd e (hn g)) (fun g e => absurd e (hs' g)) (fun _ e => by rw [hσ] at e; rcases e with e | e <;> cases e)
        (fun j s1 e e1 e2 => by
          rw [hσ] at e1; cases e1
          rcases hh j e with a | a
          · exact a
          · exact absurd e2 a)
    cases hent : w.entry with
    | file j =>
      by_cases hy : Has (w.node j).meta_
      · refine ⟨.leading true, by simp only [Proc.step, hent]; exact h' _ (I.node j) hy, hno _ (fun g e => by cases e) fun i e => ?_⟩
        rw [hent] at e; cases e
        exact .inl ⟨true, rfl, fun _ => hy⟩
      · cases s with
        | false =>
          exact ⟨.leading false, by simp only [Proc.step, hent]; exact h _ (I.node j) hy rfl, by rw [upd_same hσ]; exact I⟩
        | true =>
          refine ⟨.idle, by simp only [Proc.step, hent]; exact he _ (fun o ho => by cases ho; exact I.node j), hno _ (fun g e => by cases e) fun i e => ?_⟩
          rw [hent] at e; cases e
          exact .inr fun f => hy (f rfl)
    | none => exact ⟨.idle, by simp only [Proc.step, hent]; exact he _ (fun o ho => by cases ho), hno _ (fun g e => by cases e) fun i e => by rw [hent] at e; cases e⟩
    | link m => exact ⟨.idle, by simp only [Proc.step, hent]; exact he _ (fun o ho => by cases ho), hno _ (fun g e => by cases e) fun i e => by rw [hent] at e; cases e⟩
  | @lsetxattr s f v k hv hve hp h he =>
    have hn : ∀ g, σ n ≠ .writing g := fun g e => by rw [hσ] at e; cases e
    have hq : (∀ j, w.entry ≠ .file j) → WInv data w0 w (upd σ n .idle) := fun hj =>
      I.keep (fun g e => absurd e (hn g)) (fun g e => by cases e) (fun _ e => by rw [hσ] at e; rcases e with e | e <;> cases e) (fun j s e _ => absurd e (hj j))
    cases hent : w.entry with
    | file j => exact ⟨.leading s, by simp only [Proc.step, hent]; exact h, by simp only [Proc.step, hent]; rw [upd_same hσ]; exact I.field hv hve hp⟩
    | none => exact ⟨.idle, by simp only [Proc.step, hent]; exact he _, by simp only [Proc.step, hent]; exact hq fun j e => by rw [hent] at e; cases e⟩
    | link m => exact ⟨.idle, by simp only [Proc.step, hent]; exact he _, by simp only [Proc.step, hent]; exact hq fun j e => by rw [hent] at e; cases e⟩
  | @lopenW s k h he =>
    have hn : ∀ g, σ n ≠ .writing g := fun g e => by rw [hσ] at e; cases e
    cases hent : w.entry with
    | file j => exact ⟨.writing ⟨j, 0⟩, by simp only [Proc.step, hent]; exact h j, by simp only [Proc.step, hent]; exact I.opened hn hent⟩
    | none => exact ⟨.writing ⟨w.next, 0⟩, by simp only [Proc.step, hent]; exact h _, by simp only [Proc.step, hent]; exact I.made hn (.inr rfl)⟩
    | link m =>
      refine ⟨.idle, by simp only [Proc.step, hent]; exact he _, ?_⟩
      simp only [Proc.step, hent]
      exact I.keep (fun g e => absurd e (hn g)) (fun g e => by cases e) (fun _ e => by rw [hσ] at e; rcases e with e | e <;> cases e) (fun j s e _ => by rw [hent] at e; cases e)

theorem WInv.calls : ∀ (ns : List Nat) {w : World} {ps : Nat → Proc} {σ : Nat → St}, WInv data w0 w σ → (∀ n, Ok data (σ n) (ps n)) →
    ∃ σ', WInv data w0 (calls ns w ps).1 σ' ∧ ∀ n, Ok data (σ' n) ((calls ns w ps).2 n)
  | [], _, _, σ, I, h => ⟨σ, I, h⟩
  | n :: ns, w, ps, σ, I, h => by
    obtain ⟨s', a, b⟩ := I.step (n := n) (h n)
    refine WInv.calls ns (w := (call n w ps).1) (ps := (call n w ps).2) b fun k => ?_
    by_cases hk : k = n
    · subst hk; rw [upd_self]; simp only [call, if_true]; exact a
    · rw [upd_ne hk]; simp only [call, if_neg hk]; exact h k

/-- What has ended has nothing left to do. -/
theorem ended_ok {s : St} {p : Proc} (h : Ok data s p) (he : p.ended = true) : s = .idle ∨ ∃ g, s = .writing g ∧ g.off = data.length := by
  cases h <;> first | exact .inl rfl | (rename_i hl hp; exact .inr ⟨_, rfl, hl⟩) | cases he

/-- A process that fetches data in some chunks, or one that has ended. -/
def Fetcher (data : Bytes) (p : Proc) : Prop := p.ended = true ∨ ∃ E cs, cs ≠ [] ∧ cs.flatten = data ∧ p = fetch E cs

theorem content_of (data : Bytes) (w : World) (ps : Nat → Proc) (hps : ∀ n, Ok data .idle (ps n))
    (hw : w.entry ≠ .none) (hi : ∀ j, w.entry = .file j → j < w.next)
    (hl : ∀ m, w.entry = .link m → Proper m) (hx : ∀ j m, (w.node j).meta_ = some m → Proper m)
    (ns : List Nat) (hend : ∀ n, ((calls ns w ps).2 n).ended = true) :
    (calls ns w ps).1.entry ≠ .none ∧
    ∀ j, (calls ns w ps).1.entry = .file j →
      ((calls ns w ps).1.node j).data = data ∨ (w.entry = .file j ∧ ((calls ns w ps).1.node j).data = (w.node j).data) := by
  have I : WInv data w w fun _ => .idle :=
    ⟨hl, fun j m => hx j m, hi, fun n h e => (by cases e), fun e => absurd e hw, fun j hj => .inr (.inl ⟨hj, rfl⟩)⟩
  obtain ⟨σ, I', h⟩ := I.calls ns (ps := ps) hps
  have he : ∀ n, σ n = .idle ∨ ∃ g, σ n = .writing g ∧ g.off = data.length := fun n => ended_ok (h n) (hend n)
  refine ⟨fun e => ?_, fun j hj => ?_⟩
  · obtain ⟨n, hn⟩ := I'.some_ e
    rcases he n with h | ⟨g, h, _⟩ <;> rw [h] at hn <;> rcases hn with e | e <;> cases e
  · rcases I'.cared j hj with c | c | ⟨n, s, hn, _⟩
    · refine .inl (c.full fun o ⟨n, hn⟩ => ?_)
      rcases he n with h | ⟨g, h, hg⟩ <;> rw [h] at hn <;> cases hn
      simp at hg; omega
    · exact .inr c
    · rcases he n with h | ⟨g, h, _⟩ <;> rw [h] at hn <;> cases hn

/-- When all processes have ended there is something at the path, and a file has all of the data or has not been touched. -/
theorem C126_content (data : Bytes) (w : World) (ps : Nat → Proc) (hps : ∀ n, Fetcher data (ps n))
    (hw : w.entry ≠ .none) (hi : ∀ j, w.entry = .file j → j < w.next)
    (hl : ∀ m, w.entry = .link m → ∃ l, m .errors = .strs l) (hx : ∀ j m, (w.node j).meta_ = some m → ∃ l, m .errors = .strs l)
    (ns : List Nat) (hend : ∀ n, ((calls ns w ps).2 n).ended = true) :
    (calls ns w ps).1.entry ≠ .none ∧
    ∀ j, (calls ns w ps).1.entry = .file j →
      ((calls ns w ps).1.node j).data = data ∨ (w.entry = .file j ∧ ((calls ns w ps).1.node j).data = (w.node j).data) := by
  refine content_of data w ps (fun n => ?_) hw hi hl hx ns hend
  rcases hps n with e | ⟨E, cs, hc, hd, e⟩
  · cases hp : ps n <;> rw [hp] at e <;> first | exact .ret _ | cases e
  · rw [e]; exact ok_fetch E hc hd

/-! ## A file that has its metadata -/

/-- The stages of a process that fetches a file that is there. -/
inductive Stage where
  | before
  | writing (o : Nat)
  | after

/-- The ends of a fetch -/
def Fair (r : Outcome) : Prop := r = .returned ∨ r = .raised .valueError

inductive Good (data : Bytes) (i : Nat) (m : Meta) (l : List Str) : Stage → Proc → Prop
  | ret {r} (h : Fair r) : Good data i m l .after (.ret r)
  | exists_ {s k} (h : Good data i m l s (k true)) : Good data i m l s (.exists_ k)
  | isSymlink {s k} (h : Good data i m l s (k false)) : Good data i m l s (.isSymlink k)
  | xattrs {s k} (h : Good data i m l s (k (.ok (some m)))) (h' : Good data i m l s (k (.ok (some (mark m l))))) : Good data i m l s (.xattrs k)
  | setxattr {f v k} (hv : v = mark m l f) (h : Good data i m l .after (k (.ok ()))) : Good data i m l .after (.setxattr f v k)
  | openW {k} (h : Good data i m l (.writing 0) (k (.ok ⟨i, 0⟩))) : Good data i m l .before (.openW k)
  | write {o b k} (hl : o + b.length ≤ data.length) (hb : b = (data.drop o).take b.length)
      (hk : Good data i m l (.writing (o + b.length)) (k ⟨i, o + b.length⟩)) : Good data i m l (.writing o) (.write ⟨i, o⟩ b k)
  | wrote {o p} (hl : o = data.length) (hp : Good data i m l .after p) : Good data i m l (.writing o) p
  | size {k} (h : ∀ x, Good data i m l .after (k (.ok x))) : Good data i m l .after (.size k)
  | content {k} (h : ∀ x, Good data i m l .after (k (.ok x))) : Good data i m l .after (.content k)

variable {i : Nat} {m : Meta} {l : List Str}

theorem good_readMeta {s : Stage} (hm : metaBool m = true) {k} (h : Good data i m l s (k (.ok (some m))))
    (h' : Good data i m l s (k (.ok (some (mark m l))))) : Good data i m l s (readMeta k) := by
  unfold readMeta
  refine .exists_ (.exists_ (.xattrs ?_ ?_))
  · dsimp only; rw [if_pos hm]; exact h
  · dsimp only; rw [if_pos (metaBool_mark m l)]; exact h'

theorem good_setAll {k} (h : Good data i m l .after (k (.ok ()))) : ∀ fs, Good data i m l .after (setAll (mark m l) k fs)
  | [] => h
  | _ :: fs => .setxattr rfl (good_setAll h fs)

theorem good_setMeta (E : Env) {k} (h : Good data i m l .after (k (.ok ()))) : Good data i m l .after (setMeta E (mark m l) k) := by
  unfold setMeta
  dsimp only
  rw [if_neg (by rw [metaBool_mark]; simp)]
  refine .exists_ (.isSymlink ?_)
  unfold eatSet
  exact .exists_ (.isSymlink (good_setAll h _))

/-- `m'` is the metadata with or without the mark. -/
def Either (m : Meta) (l : List Str) (m' : Meta) : Prop := m' = m ∨ m' = mark m l

theorem either_ne {m' : Meta} (h : Either m l m') {f : Field} (hf : f ≠ .errors) : m' f = m f := by
  rcases h with rfl | rfl
  · rfl
  · exact mark_ne m l hf

theorem good_checkSum (E : Env) {m' : Meta} (h' : Either m l m') (hm : metaBool m = true) (hl : m .errors = .strs l)
    (hc : m .checksum = .none ∨ ∃ c, m .checksum = .bytes c) (hE : ∃ h, E.cypher (m .checksum_cypher) = .ok h) :
    Good data i m l .after (checkSum E m') := by
  unfold checkSum
  split
  · exact .ret (.inl rfl)
  · rename_i hk
    have hm' : m' = m := by
      rcases h' with e | e
      · exact e
      · exact absurd (by rw [e]; simp [marked, mark, Verif.setField]) hk
    subst hm'
    obtain ⟨h, hh⟩ := hE
    have key : Good data i m' l .after (Proc.content fun r => match r with
          | .error e => .ret (.raised e)
          | .ok b => match m' .checksum with
            | .none => .ret .returned
            | .bytes c =>
              if h b ≠ c then
                match m' .errors with
                | .strs l => setMeta E (mark m' l) fun r => match r with | .error e => .ret (.raised e) | .ok _ => .ret .returned
                | _ => .ret (.raised .typeError)
              else .ret .returned
            | _ => .ret (.raised .attributeError)) := by
      refine .content fun x => ?_
      dsimp only
      rcases hc with e | ⟨c, e⟩
      · rw [e]; exact .ret (.inl rfl)
      · rw [e]
        dsimp only
        split
        · rw [hl]
          exact good_setMeta E (.ret (.inl rfl))
        · exact .ret (.inl rfl)
    refine good_readMeta hm ?_ ?_
    · dsimp only; rw [hh]; exact key
    · dsimp only; rw [mark_ne _ _ (by decide), hh]; exact key

theorem good_writeAll {k : Proc} (hk : Good data i m l .after k) : ∀ (bs : List Bytes) (o : Nat), bs.flatten = data.drop o → o ≤ data.length →
    Good data i m l (.writing o) (writeAll k bs ⟨i, o⟩)
  | [], o, hf, hl => .wrote (by have := congrArg List.length hf; simp at this; omega) hk
  | b :: bs, o, hf, hl => by
    have hlen : o + b.length ≤ data.length := by have := congrArg List.length hf; simp at this; omega
    refine .write hlen ?_ (good_writeAll hk bs _ ?_ hlen)
    · rw [← hf]; simp
    · rw [← List.drop_drop, ← hf]; simp

theorem good_download (E : Env) {cs : List Bytes} (hne : cs ≠ []) (hd : cs.flatten = data) {m' : Meta} (h' : Either m l m') (hm : metaBool m = true)
    (hl : m .errors = .strs l) (hc : m .checksum = .none ∨ ∃ c, m .checksum = .bytes c) (hE : ∃ h, E.cypher (m .checksum_cypher) = .ok h) :
    Good data i m l .before (download E cs m') := by
  have h5 : Good data i m l .after (checkSize E m') := by
    unfold checkSize
    refine .size fun x => ?_
    dsimp only
    split
    · exact good_checkSum E h' hm hl hc hE
    · exact .ret (.inr rfl)
  have h4 : Good data i m l .after (afterData (checkSize E m')) := by
    unfold afterData
    exact good_readMeta hm (good_readMeta hm (good_readMeta hm h5 h5) (good_readMeta hm h5 h5)) (good_readMeta hm (good_readMeta hm h5 h5) (good_readMeta hm h5 h5))
  obtain ⟨b, bs, rfl⟩ := List.exists_cons_of_ne_nil hne
  have h3 : Good data i m l .before (setData (b :: bs) (checkSize E m')) := by
    unfold setData
    have := good_writeAll (i := i) h4 (b :: bs) 0 (by simpa using hd) (by simp)
    exact good_readMeta hm (.openW this) (.openW this)
  unfold download readId
  exact good_readMeta hm (good_readMeta hm h3 h3) (good_readMeta hm h3 h3)

theorem good_fetch (E : Env) {cs : List Bytes} (hne : cs ≠ []) (hd : cs.flatten = data) (hm : metaBool m = true) (hf : m .file_id ≠ .none)
    (hl : m .errors = .strs l) (hc : m .checksum = .none ∨ ∃ c, m .checksum = .bytes c) (hE : ∃ h, E.cypher (m .checksum_cypher) = .ok h) :
    Good data i m l .before (fetch E cs) := by
  have key : ∀ m', Either m l m' → Good data i m l .before (fetchWith E cs m') := fun m' h' => by
    unfold fetchWith
    rw [if_neg (by rw [either_ne h' (by decide)]; exact hf)]
    exact .isSymlink (good_download E hne hd h' hm hl hc hE)
  unfold fetch
  exact good_readMeta hm (key _ (.inl rfl)) (key _ (.inr rfl))

def setAt (σ : Nat → Stage) (n : Nat) (s : Stage) : Nat → Stage := fun j => if j = n then s else σ j

theorem setAt_self {σ : Nat → Stage} {n : Nat} {s : Stage} : setAt σ n s n = s := by simp [setAt]
theorem setAt_ne {σ : Nat → Stage} {n k : Nat} {s : Stage} (h : k ≠ n) : setAt σ n s k = σ k := by simp [setAt, h]
theorem setAt_same {σ : Nat → Stage} {n : Nat} {s : Stage} (h : σ n = s) : setAt σ n s = σ := by
  funext k; by_cases hk : k = n
  · subst hk; rw [setAt_self, h]
  · rw [setAt_ne hk]

/-- While the file is fetched -/
structure FInv (data : Bytes) (i : Nat) (m : Meta) (l : List Str) (w : World) (σ : Nat → Stage) : Prop where
  entry : w.entry = .file i
  meta_ : ∃ m', (w.node i).meta_ = some m' ∧ Either m l m'
  open_ : (∃ n, σ n = .before) ∨ Covered data (w.node i).data fun o => ∃ n, σ n = .writing o
  hands : ∀ n o, σ n = .writing o → Covered data (w.node i).data fun o => ∃ n, σ n = .writing o

theorem FInv.step {w : World} {σ : Nat → Stage} {n : Nat} (I : FInv data i m l w σ) {p : Proc} (hp : Good data i m l (σ n) p) :
    ∃ s', Good data i m l s' (p.step w).2 ∧ FInv data i m l (p.step w).1 (setAt σ n s') := by
  obtain ⟨m', hm', he'⟩ := I.meta_
  generalize hσ : σ n = s at hp
  induction hp generalizing σ with
  | ret h => exact ⟨_, .ret h, by rw [setAt_same hσ]; exact I⟩
  | exists_ h => exact ⟨_, by simp only [Proc.step, I.entry]; exact h, by rw [setAt_same hσ]; exact I⟩
  | isSymlink h => exact ⟨_, by simp only [Proc.step, I.entry]; exact h, by rw [setAt_same hσ]; exact I⟩
  | xattrs h h' =>
    refine ⟨_, ?_, by rw [setAt_same hσ]; exact I⟩
    simp only [Proc.step, I.entry, hm']
    rcases he' with rfl | rfl
    · exact h
    · exact h'
  | @setxattr f v k hv h =>
    refine ⟨_, by simp only [Proc.step, I.entry]; exact h, ?_⟩
    rw [setAt_same hσ]
    simp only [Proc.step, I.entry]
    have hd : ((w.setField i f v).node i).data = (w.node i).data := by simp [World.setField]
    refine ⟨I.entry, ⟨Verif.setField m' f v, by simp [World.setField, hm'], ?_⟩, by rw [hd]; exact I.open_, by rw [hd]; exact I.hands⟩
    by_cases hf : f = .errors
    · right
      funext g
      simp only [Verif.setField]
      split
      · rename_i hg; rw [hv, hg]
      · rename_i hg
        rw [either_ne he' (fun e => hg (e.trans hf.symm)), mark_ne _ _ (fun e => hg (e.trans hf.symm))]
    · have : Verif.setField m' f v = m' := by
        funext g
        simp only [Verif.setField]
        split
        · rename_i hg; rw [hv, hg, mark_ne _ _ hf, either_ne he' hf]
        · rfl
      rw [this]; exact he'
  | @openW k h =>
    refine ⟨_, by simp only [Proc.step, I.entry]; exact h, ?_⟩
    simp only [Proc.step, I.entry]
    have hc : Covered data ((w.setData i []).node i).data fun o => ∃ k, setAt σ n (.writing 0) k = .writing o := by
      simp only [World.setData, if_true]
      exact .empty ⟨n, setAt_self⟩
    exact ⟨I.entry, ⟨m', by simp [World.setData, hm'], he'⟩, .inr hc, fun _ _ _ => hc⟩
  | @write o b k hl hb hk ih =>
    refine ⟨_, hk, ?_⟩
    simp only [Proc.step]
    have hc : Covered data ((w.setData i (writeAt (w.node i).data o b)).node i).data fun o' => ∃ k, setAt σ n (.writing (o + b.length)) k = .writing o' := by
      simp only [World.setData, if_true]
      refine (I.hands n o hσ).write hl hb (fun o' ⟨k, hk⟩ ho => ⟨k, ?_⟩) ⟨n, setAt_self⟩
      rw [setAt_ne, hk]
      rintro rfl
      rw [hσ] at hk; cases hk; exact ho rfl
    exact ⟨I.entry, ⟨m', by simp [World.setData, hm'], he'⟩, .inr hc, fun _ _ _ => hc⟩
  | @wrote o p ho hp ih =>
    have hc : Covered data (w.node i).data fun o' => ∃ k, setAt σ n .after k = .writing o' := by
      refine (I.hands n o hσ).mono fun o' ⟨k, hk⟩ hlt => ⟨k, ?_⟩
      rw [setAt_ne, hk]
      rintro rfl
      rw [hσ] at hk; cases hk; omega
    have I' : FInv data i m l w (setAt σ n .after) := ⟨I.entry, I.meta_, .inr hc, fun _ _ _ => hc⟩
    obtain ⟨s', a, b⟩ := ih I' setAt_self
    refine ⟨s', a, ?_⟩
    have : setAt (setAt σ n .after) n s' = setAt σ n s' := by
      funext k; by_cases hk : k = n <;> simp [setAt, hk]
    rw [this] at b; exact b
  | size h => exact ⟨_, by simp only [Proc.step, I.entry]; exact h _, by rw [setAt_same hσ]; exact I⟩
  | content h => exact ⟨_, by simp only [Proc.step, I.entry]; exact h _, by rw [setAt_same hσ]; exact I⟩

theorem FInv.calls : ∀ (ns : List Nat) {w : World} {ps : Nat → Proc} {σ : Nat → Stage}, FInv data i m l w σ →
    (∀ n, Good data i m l (σ n) (ps n)) → ∃ σ', FInv data i m l (calls ns w ps).1 σ' ∧ ∀ n, Good data i m l (σ' n) ((calls ns w ps).2 n)
  | [], _, _, σ, I, h => ⟨σ, I, h⟩
  | n :: ns, w, ps, σ, I, h => by
    obtain ⟨s', a, b⟩ := I.step (n := n) (h n)
    refine FInv.calls ns (w := (call n w ps).1) (ps := (call n w ps).2) b fun k => ?_
    by_cases hk : k = n
    · subst hk; rw [setAt_self]; simp only [call, if_true]; exact a
    · rw [setAt_ne hk]; simp only [call, if_neg hk]; exact h k

theorem C126_file (data : Bytes) (i : Nat) (m : Meta) (l : List Str) (hm : metaBool m = true) (hf : m .file_id ≠ .none)
    (hl : m .errors = .strs l) (hc : m .checksum = .none ∨ ∃ c, m .checksum = .bytes c)
    (w : World) (hw : w.entry = .file i) (hx : (w.node i).meta_ = some m) (ps : Nat → Proc)
    (hps : ∀ n, ps n = .ret .returned ∨ ∃ E cs, cs ≠ [] ∧ cs.flatten = data ∧ (∃ h, E.cypher (m .checksum_cypher) = .ok h) ∧ ps n = fetch E cs)
    (n0 : Nat) (hn0 : ps n0 ≠ .ret .returned) (ns : List Nat) :
    (calls ns w ps).1.entry = .file i ∧
    (((calls ns w ps).1.node i).meta_ = some m ∨ ((calls ns w ps).1.node i).meta_ = some (Verif.setField m .errors (.strs (l ++ [lit "checksum-mismatch"])))) ∧
    (∀ n r, (calls ns w ps).2 n = .ret r → r = .returned ∨ r = .raised .valueError) ∧
    ((∀ n, ((calls ns w ps).2 n).ended = true) → ((calls ns w ps).1.node i).data = data) := by
  classical
  have I : FInv data i m l w fun n => if ps n = .ret .returned then .after else .before :=
    ⟨hw, ⟨m, hx, .inl rfl⟩, .inl ⟨n0, if_neg hn0⟩, fun n o h => by split at h <;> cases h⟩
  obtain ⟨σ, I', h⟩ := I.calls ns (ps := ps) fun n => by
    split
    · rename_i e; rw [e]; exact .ret (.inl rfl)
    · rename_i hn
      rcases hps n with e | ⟨E, cs, hne, hd, hE, e⟩
      · exact absurd e hn
      · rw [e]; exact good_fetch E hne hd hm hf hl hc hE
  have hend : ∀ n, ((calls ns w ps).2 n).ended = true → σ n = .after ∨ ∃ o, σ n = .writing o ∧ o = data.length := fun n he => by
    have hg := h n
    generalize (calls ns w ps).2 n = p at hg he
    generalize σ n = s at hg
    cases hg <;> first | exact .inl rfl | (rename_i ho hp; exact .inr ⟨_, rfl, ho⟩) | cases he
  refine ⟨I'.entry, ?_, fun n r e => ?_, fun he => ?_⟩
  · obtain ⟨m', hm', e | e⟩ := I'.meta_
    · exact .inl (by rw [hm', e])
    · refine .inr ?_
      rw [hm', e, mark]
      unfold mismatch; rfl
  · have hg := h n
    rw [e] at hg
    generalize σ n = s at hg
    cases hg with
    | ret h => exact h
    | wrote _ hp => cases hp with | ret h => exact h
  · rcases I'.open_ with ⟨n, hn⟩ | hcov
    · rcases hend n (he n) with e | ⟨o, e, _⟩ <;> rw [hn] at e <;> cases e
    · refine hcov.full fun o ⟨n, hn⟩ => ?_
      rcases hend n (he n) with e | ⟨o', e, ho⟩ <;> rw [hn] at e <;> cases e
      omega

/-! ## Runs -/

/-- How a process has ended. -/
def result : Proc → Option Outcome
  | .ret r => some r
  | _ => none

def record : Meta := fun f => match f with
  | .id => .str (lit "f1")
  | .file_id => .str (lit "7")
  | .size => .int 2
  | .checksum => .bytes [1, 2]
  | .errors => .strs []
  | _ => .none

def asIs : Env := ⟨fun _ => .ok id, fun a b => .ok (decide (a ≠ b))⟩

/-- The first `n` processes fetch the bytes one by one, the others have ended. -/
def fetchers (n : Nat) (data : Bytes) : Nat → Proc := fun j => if j < n then fetch asIs (data.map fun b => [b]) else .ret .returned

def onLink : World := ⟨.link record, fun _ => ⟨[], none⟩, 0⟩
def onFile : World := ⟨.file 0, fun _ => ⟨[9], some record⟩, 1⟩

/-- What is at the path, its content and attributes, and the results of the first three processes. -/
def summary (s : World × (Nat → Proc)) : Entry × Option (Bytes × Option Meta) × List (Option Outcome) :=
  (s.1.entry, match s.1.entry with | .file j => some ((s.1.node j).data, (s.1.node j).meta_) | _ => none, [result (s.2 0), result (s.2 1), result (s.2 2)])

/-- Process `n` makes `k` calls. -/
def turn (n k : Nat) : List Nat := List.replicate k n

/-- Both fetch a link, and one reads the metadata after `touch` and before `_meta_setter`. -/
theorem C126_window_counterexample :
    summary (calls (turn 0 10 ++ turn 1 3 ++ turn 0 34) onLink (fetchers 2 [1, 2])) =
      (.file 0, some ([1, 2], some record), [some .returned, some (.raised .noCachedMetadataError), some .returned]) := by decide +kernel

/-- The other opens the file before the size is looked at. -/
theorem C126_size_counterexample :
    summary (calls (turn 0 25 ++ turn 1 14 ++ turn 0 1 ++ turn 1 16) onFile (fetchers 2 [1, 2])) =
      (.file 0, some ([1, 2], some record), [some (.raised .valueError), some .returned, some .returned]) := by decide +kernel

/-- The other opens the file between two chunks: the file that is read has a hole, and the mark stays. -/
theorem C126_mark_counterexample :
    summary (calls (turn 0 15 ++ turn 1 14 ++ turn 0 25 ++ turn 1 16) onFile (fetchers 2 [1, 2])) =
      (.file 0, some ([1, 2], some (mark record [])), [some .returned, some .returned, some .returned]) := by decide +kernel

/-- One has seen a link, and the other has replaced it by a file when it is read. -/
theorem C126_readlink_counterexample :
    summary (calls (turn 1 4 ++ turn 0 60 ++ turn 1 1) onLink (fetchers 2 [1, 2])) =
      (.file 0, some ([1, 2], some record), [some .returned, some (.raised .osError), some .returned]) := by decide +kernel

/-- Both see a link; one removes the file that the other has created, and that one puts the link back. -/
theorem C126_neither_counterexample :
    summary (calls (turn 0 7 ++ turn 1 7 ++ turn 0 3 ++ turn 1 1 ++ turn 0 5 ++ turn 1 2 ++ turn 0 20) onLink (fetchers 2 [1, 2])) =
      (.link record, none, [some (.raised .osError), some (.raised .osError), some .returned]) := by decide +kernel

/-- One has fetched the file and returned, and then it is removed. -/
theorem C126_removed_counterexample :
    summary (calls (turn 0 7 ++ turn 1 7 ++ turn 2 10 ++ turn 0 1 ++ turn 2 4 ++ turn 0 36 ++ turn 1 1 ++ turn 2 1 ++ turn 1 2 ++ turn 2 16)
        onLink (fetchers 3 [1, 2])) =
      (.link record, none, [some .returned, some (.raised .osError), some (.raised .osError)]) := by decide +kernel

/-- The data does not have the checksum, and the link is moved to the trash while it is being marked: the file has no metadata at the end. -/
theorem C126_lost_counterexample :
    summary (calls (turn 0 7 ++ turn 1 7 ++ turn 2 10 ++ turn 0 1 ++ turn 2 4 ++ turn 0 36 ++ turn 1 1 ++ turn 2 1 ++ turn 1 2 ++ turn 2 15 ++ turn 0 18 ++
        turn 2 6 ++ turn 0 1) onLink (fetchers 3 [3, 4])) =
      (.file 2, some ([3, 4], none), [some (.raised .fileExistsError), some (.raised .osError), some (.raised .attributeError)]) := by decide +kernel

theorem fetchers_ok (n : Nat) {data : Bytes} (h : data ≠ []) : ∀ k, Fetcher data (fetchers n data k) := fun k => by
  unfold fetchers
  split
  · exact .inr ⟨_, _, by simpa using h, by rw [← List.flatMap_def]; simp, rfl⟩
  · exact .inl rfl

theorem calls_other {n : Nat} : ∀ (ns : List Nat) (w : World) (ps : Nat → Proc), n ∉ ns → (calls ns w ps).2 n = ps n
  | [], _, _, _ => rfl
  | k :: ns, w, ps, h => by
    rw [calls, calls_other ns _ _ (fun e => h (by simp [e]))]
    simp only [call]
    rw [if_neg (fun e => h (by simp [e]))]

theorem ended_other {ns : List Nat} {k : Nat} {w : World} {data : Bytes} (hns : ∀ n ∈ ns, n < k) (h : ∀ n < k, ((calls ns w (fetchers k data)).2 n).ended = true) :
    ∀ n, ((calls ns w (fetchers k data)).2 n).ended = true := fun n => by
  by_cases hn : n < k
  · exact h n hn
  · rw [calls_other _ _ _ (fun e => hn (hns n e))]
    simp [fetchers, hn, Proc.ended]

/-- `C126_file`: both have fetched the file, and its content is right. -/
example : ((calls (turn 0 15 ++ turn 1 14 ++ turn 0 25 ++ turn 1 16) onFile (fetchers 2 [1, 2])).1.node 0).data = [1, 2] :=
  (C126_file [1, 2] 0 record [] (by decide) (by decide) rfl (.inr ⟨_, rfl⟩) onFile rfl rfl (fetchers 2 [1, 2])
    (fun n => by
      unfold fetchers
      split
      · exact .inr ⟨_, _, by simp, rfl, ⟨_, rfl⟩, rfl⟩
      · exact .inl rfl) 0 (fun h => by cases h) _).2.2.2 (ended_other (by decide) (by decide +kernel))

/-- `C126_content`: one of the two has fetched the file that was a link. -/
example : let s := calls (turn 0 10 ++ turn 1 3 ++ turn 0 34) onLink (fetchers 2 [1, 2])
    s.1.entry ≠ .none ∧ ∀ j, s.1.entry = .file j → (s.1.node j).data = [1, 2] ∨ (onLink.entry = .file j ∧ (s.1.node j).data = (onLink.node j).data) :=
  C126_content [1, 2] onLink _ (fetchers_ok 2 (by simp)) (fun h => by cases h) (fun j h => by cases h) (fun m h => by cases h; exact ⟨[], rfl⟩)
    (fun j m h => by cases h) _ (ended_other (by decide) (by decide +kernel))

/-! ## Metadata of a file that was a link -/

/-- The stages of a process that stores metadata. -/
inductive Phase where
  | idle
  /-- it has removed what was there, and is going to create a file and to store the metadata -/
  | touching
  /-- it has these fields left to store -/
  | storing (fs : List Field)

inductive Keeps (m : Meta) : Phase → Proc → Prop
  | ret (r) : Keeps m .idle (.ret r)
  | exists_ {k} (h : ∀ b, Keeps m .idle (k b)) : Keeps m .idle (.exists_ k)
  | isSymlink {k} (h : ∀ b, Keeps m .idle (k b)) : Keeps m .idle (.isSymlink k)
  | xattrs {k} (h : ∀ r, Keeps m .idle (k r)) : Keeps m .idle (.xattrs k)
  | setxattr {f k} (hf : f ∈ storedFields m) (h : ∀ r, Keeps m .idle (k r)) : Keeps m .idle (.setxattr f (m f) k)
  | readlink {k} (h : Keeps m .idle (k (.ok m))) (he : ∀ e, Keeps m .idle (k (.error e))) : Keeps m .idle (.readlink k)
  | unlink {k} (h : Keeps m .touching (k (.ok ()))) (he : ∀ e, Keeps m .idle (k (.error e))) : Keeps m .idle (.unlink k)
  | symlink {k} (h : ∀ r, Keeps m .idle (k r)) : Keeps m .idle (.symlink m k)
  | openW {k} (h : ∀ r, Keeps m .idle (k r)) : Keeps m .idle (.openW k)
  | write {g b k} (h : ∀ r, Keeps m .idle (k r)) : Keeps m .idle (.write g b k)
  | size {k} (h : ∀ r, Keeps m .idle (k r)) : Keeps m .idle (.size k)
  | content {k} (h : ∀ r, Keeps m .idle (k r)) : Keeps m .idle (.content k)
  | utime {k} (h : Keeps m .touching (k false)) (h' : Keeps m (.storing (storedFields m)) (k true)) : Keeps m .touching (.utime k)
  | creat {k} (h : Keeps m (.storing (storedFields m)) (k (.ok ()))) (he : ∀ e, Keeps m .idle (k (.error e))) : Keeps m .touching (.creat k)
  | sexists {fs k} (h : Keeps m (.storing fs) (k true)) (he : Keeps m .idle (k false)) : Keeps m (.storing fs) (.exists_ k)
  | ssymlink {fs k} (h : Keeps m (.storing fs) (k false)) (he : Keeps m .idle (k true)) : Keeps m (.storing fs) (.isSymlink k)
  | store {f fs k} (hf : f ∈ storedFields m) (h : Keeps m (.storing fs) (k (.ok ()))) (he : ∀ e, Keeps m .idle (k (.error e))) :
      Keeps m (.storing (f :: fs)) (.setxattr f (m f) k)
  | stored {p} (h : Keeps m .idle p) : Keeps m (.storing []) p

variable {m : Meta}

theorem keeps_linkMeta {k} (h : Keeps m .idle (k (.ok (some m)))) (he : ∀ e, Keeps m .idle (k (.error e))) : Keeps m .idle (linkMeta k) := by
  unfold linkMeta
  refine .isSymlink fun b => ?_
  cases b
  · exact he _
  · refine .exists_ fun b => ?_
    cases b
    · exact .readlink h fun e => he _
    · exact he _

theorem keeps_readMeta {k} (h : ∀ r, Keeps m .idle (k r)) : Keeps m .idle (readMeta k) := by
  unfold readMeta
  refine .exists_ fun b => ?_
  cases b
  · refine .isSymlink fun b => ?_
    cases b
    · exact h _
    · rw [if_pos rfl]
      refine keeps_linkMeta (h _) fun e => ?_
      dsimp only
      split <;> exact h _
  · refine .exists_ fun b => ?_
    cases b
    · exact h _
    · refine .xattrs fun r => ?_
      match r with
      | .error e => exact h _
      | .ok none => exact h _
      | .ok (some m) => exact h _

theorem keeps_setAll {k} (h : ∀ r, Keeps m .idle (k r)) : ∀ fs : List Field, (∀ f ∈ fs, f ∈ storedFields m) → Keeps m .idle (setAll m k fs)
  | [], _ => h _
  | f :: fs, hf => .setxattr (hf f (by simp)) fun r => by
    cases r with
    | error e => exact h _
    | ok _ => exact keeps_setAll h fs fun g hg => hf g (by simp [hg])

theorem keeps_setAll' {k} (h : ∀ r, Keeps m .idle (k r)) : ∀ fs : List Field, (∀ f ∈ fs, f ∈ storedFields m) → Keeps m (.storing fs) (setAll m k fs)
  | [], _ => .stored (h _)
  | f :: fs, hf => .store (hf f (by simp)) (keeps_setAll' h fs fun g hg => hf g (by simp [hg])) fun e => h _

theorem keeps_eatSet {k} (h : ∀ r, Keeps m .idle (k r)) : Keeps m .idle (eatSet m k) := by
  unfold eatSet
  refine .exists_ fun b => ?_
  cases b
  · exact h _
  · refine .isSymlink fun b => ?_
    cases b
    · exact keeps_setAll h _ fun f hf => hf
    · exact h _

theorem keeps_setRest (E : Env) (hE : E.replace m m = .ok false) {k} (h : ∀ r, Keeps m .idle (k r)) :
    Keeps m .idle (Proc.exists_ fun e => if e then eatSet m k else linkSet E m k) := by
  refine .exists_ fun b => ?_
  cases b
  · show Keeps m .idle (linkSet E m k)
    unfold linkSet
    refine .exists_ fun b => ?_
    cases b
    · refine .isSymlink fun b => ?_
      cases b
      · exact .symlink h
      · rw [if_pos rfl]
        refine keeps_linkMeta ?_ fun e => h _
        dsimp only
        rw [hE]
        exact h _
    · exact h _
  · exact keeps_eatSet h

theorem keeps_setMeta' (E : Env) (hE : E.replace m m = .ok false) (hm : metaBool m = true) {k} (h : ∀ r, Keeps m .idle (k r)) :
    Keeps m (.storing (storedFields m)) (setMeta E m k) := by
  unfold setMeta
  dsimp only
  rw [if_neg (by rw [hm]; simp)]
  refine .sexists (.ssymlink ?_ (keeps_setRest E hE h)) (keeps_setRest E hE h)
  unfold eatSet
  exact .sexists (.ssymlink (keeps_setAll' h _ fun f hf => hf) (h _)) (h _)

theorem keeps_writeAll {k : Proc} (hk : Keeps m .idle k) : ∀ (bs : List Bytes) (g : Handle), Keeps m .idle (writeAll k bs g)
  | [], _ => hk
  | _ :: bs, _ => .write fun g => keeps_writeAll hk bs g

theorem keeps_checkSum (E : Env) (hc : marked m = true ∨ m .checksum = .none) : Keeps m .idle (checkSum E m) := by
  unfold checkSum
  split
  · exact .ret _
  · rename_i hk
    have hc : m .checksum = .none := hc.resolve_left hk
    refine keeps_readMeta fun r => ?_
    match r with
    | .error e => exact .ret _
    | .ok none => exact .ret _
    | .ok (some now) =>
      dsimp only
      cases E.cypher (now .checksum_cypher) with
      | error e => exact .ret _
      | ok h =>
        refine .content fun r => ?_
        cases r with
        | error e => exact .ret _
        | ok b => dsimp only; rw [hc]; exact .ret _

theorem keeps_download (E : Env) (cs : List Bytes) (hc : marked m = true ∨ m .checksum = .none) : Keeps m .idle (download E cs m) := by
  have h5 : Keeps m .idle (checkSize E m) := by
    unfold checkSize
    refine .size fun r => ?_
    cases r with
    | error e => exact .ret _
    | ok n =>
      dsimp only
      split
      · exact keeps_checkSum E hc
      · exact .ret _
  have h4 : Keeps m .idle (afterData (checkSize E m)) := ok_after h5
  have h3 : Keeps m .idle (setData cs (checkSize E m)) := by
    unfold setData
    refine keeps_readMeta fun r => ?_
    cases r with
    | error e => exact .ret _
    | ok _ =>
      cases cs with
      | nil => exact .ret _
      | cons b bs =>
        refine .openW fun r => ?_
        cases r with
        | error e => exact .ret _
        | ok g => exact keeps_writeAll h4 _ _
  unfold download readId
  refine keeps_readMeta fun r => ?_
  match r with
  | .error e => exact .ret _
  | .ok none => exact h3
  | .ok (some _) =>
    refine keeps_readMeta fun r => ?_
    match r with
    | .error e => exact .ret _
    | .ok none => exact .ret _
    | .ok (some _) => exact h3
where
  ok_after {k : Proc} (hk : Keeps m .idle k) : Keeps m .idle (afterData k) := by
    unfold afterData
    refine keeps_readMeta fun r => ?_
    match r with
    | .error e => exact .ret _
    | .ok none => exact .ret _
    | .ok (some _) =>
      refine keeps_readMeta fun r => ?_
      match r with
      | .error e => exact .ret _
      | .ok none => exact .ret _
      | .ok (some _) =>
        refine keeps_readMeta fun r => ?_
        match r with
        | .error e => exact .ret _
        | .ok none => exact .ret _
        | .ok (some _) => exact hk

theorem keeps_fetch (E : Env) (cs : List Bytes) (hE : E.replace m m = .ok false) (hm : metaBool m = true) (hc : marked m = true ∨ m .checksum = .none) :
    Keeps m .idle (fetchWith E cs m) := by
  unfold fetchWith
  split
  · exact .ret _
  · have hi : ∀ r : Except PyErr Unit, Keeps m .idle (match r with
        | .error e => .ret (.raised e)
        | .ok _ => download E cs m) := fun r => by
      cases r with
      | error e => exact .ret _
      | ok _ => exact keeps_download E cs hc
    refine .isSymlink fun b => ?_
    cases b
    · exact keeps_download E cs hc
    · refine .exists_ fun b => ?_
      cases b
      · show Keeps m .idle (makeFile E cs m)
        unfold makeFile
        refine .unlink ?_ fun e => .ret _
        refine .utime ?_ (keeps_setMeta' E hE hm hi)
        exact .creat (keeps_setMeta' E hE hm hi) fun e => .ret _
      · exact keeps_download E cs hc

/-- The fields of `m` except `fs` are stored. -/
def Stored (m : Meta) (fs : List Field) (o : Option Meta) : Prop := ∀ f ∈ storedFields m, f ∉ fs → ∃ m', o = some m' ∧ m' f = m f

def setPh (σ : Nat → Phase) (n : Nat) (s : Phase) : Nat → Phase := fun j => if j = n then s else σ j

variable {σ : Nat → Phase} {n : Nat} {s : Phase} {w : World}

theorem setPh_self : setPh σ n s n = s := by simp [setPh]
theorem setPh_ne {k : Nat} (h : k ≠ n) : setPh σ n s k = σ k := by simp [setPh, h]
theorem setPh_same (h : σ n = s) : setPh σ n s = σ := by
  funext k; by_cases hk : k = n
  · subst hk; rw [setPh_self, h]
  · rw [setPh_ne hk]

/-- What is stored on a file is of `m`. -/
def Pure (m : Meta) (o : Option Meta) : Prop := ∀ m', o = some m' → ∀ f, m' f = (if f ∈ storedFields m then m f else blank f) ∨ m' f = blank f

structure MInv (m : Meta) (w : World) (σ : Nat → Phase) : Prop where
  link : ∀ m', w.entry = .link m' → m' = m
  pure : ∀ j, w.entry = .file j → Pure m (w.node j).meta_
  none_ : w.entry = .none → ∃ n, σ n = .touching
  file : ∀ j, w.entry = .file j → Stored m [] (w.node j).meta_ ∨ ∃ n, σ n = .touching ∨ ∃ fs, σ n = .storing fs ∧ Stored m fs (w.node j).meta_

/-- Nothing but the content changes. -/
theorem MInv.keep (I : MInv m w σ) {w' : World} (he : w'.entry = w.entry) (hw : ∀ j, (w'.node j).meta_ = (w.node j).meta_)
    (h0 : w.entry = .none → σ n = .touching → s = .touching)
    (h1 : ∀ j, w.entry = .file j → σ n = .touching → s = .touching ∨ s = .storing (storedFields m))
    (h2 : ∀ j fs, w.entry = .file j → σ n = .storing fs → s = .storing fs ∨ fs = []) : MInv m w' (setPh σ n s) := by
  refine ⟨fun m' h => I.link m' (he ▸ h), fun j h => by rw [hw]; exact I.pure j (he ▸ h), fun h => ?_, fun j h => ?_⟩
  · obtain ⟨k, hk⟩ := I.none_ (he ▸ h)
    by_cases hkn : k = n
    · subst hkn; exact ⟨k, by rw [setPh_self]; exact h0 (he ▸ h) hk⟩
    · exact ⟨k, by rw [setPh_ne hkn]; exact hk⟩
  · rw [hw]
    rw [he] at h
    rcases I.file j h with a | ⟨k, hk⟩
    · exact .inl a
    · by_cases hkn : k = n
      · subst hkn
        rcases hk with hk | ⟨fs, hk, hs⟩
        · rcases h1 j h hk with e | e
          · exact .inr ⟨k, .inl (by rw [setPh_self, e])⟩
          · exact .inr ⟨k, .inr ⟨_, by rw [setPh_self, e], fun f hf hn => absurd hf hn⟩⟩
        · rcases h2 j fs h hk with e | e
          · exact .inr ⟨k, .inr ⟨fs, by rw [setPh_self, e], hs⟩⟩
          · exact .inl (e ▸ hs)
      · exact .inr ⟨k, by rw [setPh_ne hkn]; exact hk⟩

theorem Stored.set {fs : List Field} {o : Option Meta} (h : Stored m fs o) (f : Field) : Stored m fs (some (Verif.setField (o.getD blank) f (m f))) := by
  intro g hg hn
  refine ⟨_, rfl, ?_⟩
  simp only [Verif.setField]
  split
  · rename_i e; rw [e]
  · obtain ⟨m', rfl, e⟩ := h g hg hn; exact e

theorem Stored.set' {fs : List Field} {o : Option Meta} {f : Field} (h : Stored m (f :: fs) o) : Stored m fs (some (Verif.setField (o.getD blank) f (m f))) := by
  intro g hg hn
  by_cases e : g = f
  · exact ⟨_, rfl, by simp [Verif.setField, e]⟩
  · exact h.set f g hg (by simp [e, hn])

/-- A field is stored. -/
theorem MInv.field (I : MInv m w σ) {i : Nat} {f : Field} (he : w.entry = .file i) (hf : f ∈ storedFields m)
    (h1 : σ n = .touching → s = .touching)
    (h2 : ∀ fs, σ n = .storing fs → s = .storing fs ∨ ∃ fs', fs = f :: fs' ∧ s = .storing fs') :
    MInv m (w.setField i f (m f)) (setPh σ n s) := by
  have hnode : ((w.setField i f (m f)).node i).meta_ = some (Verif.setField ((w.node i).meta_.getD blank) f (m f)) := by simp [World.setField]
  refine ⟨I.link, fun j h => ?_, fun h => ?_, fun j h => ?_⟩
  · have : w.entry = .file j := h
    rw [he] at this; cases this
    rw [hnode]
    intro m' hm' g
    cases hm'
    simp only [Verif.setField]
    split
    · rename_i e; left; rw [e, if_pos hf]
    · cases hx : (w.node i).meta_ with
      | none => exact .inr rfl
      | some m' => exact I.pure i he m' hx g
  · have : w.entry = .none := h
    rw [he] at this; cases this
  · have : w.entry = .file j := h
    rw [he] at this; cases this
    rw [hnode]
    rcases I.file i he with a | ⟨k, hk⟩
    · exact .inl (a.set f)
    · by_cases hkn : k = n
      · subst hkn
        rcases hk with hk | ⟨fs, hk, hs⟩
        · exact .inr ⟨k, .inl (by rw [setPh_self]; exact h1 hk)⟩
        · rcases h2 fs hk with e | ⟨fs', rfl, e⟩
          · exact .inr ⟨k, .inr ⟨fs, by rw [setPh_self, e], hs.set f⟩⟩
          · exact .inr ⟨k, .inr ⟨fs', by rw [setPh_self, e], hs.set'⟩⟩
      · refine .inr ⟨k, ?_⟩
        rw [setPh_ne hkn]
        rcases hk with hk | ⟨fs, hk, hs⟩
        · exact .inl hk
        · exact .inr ⟨fs, hk, hs.set f⟩

/-- A file is created. -/
theorem MInv.made (I : MInv m w σ) (he : w.entry = .none) (h : (∀ k, σ k = .touching → setPh σ n s k = .touching) ∨ s = .storing (storedFields m)) :
    MInv m w.make (setPh σ n s) := by
  have hnew : w.make.node w.next = ⟨[], none⟩ := by simp [World.make]
  refine ⟨fun m' h => (by cases h), fun j h => ?_, fun h => (by cases h), fun j hj => ?_⟩
  · cases h; rw [hnew]; intro m' h; cases h
  · cases hj
    rcases h with h | h
    · obtain ⟨k, hk⟩ := I.none_ he
      exact .inr ⟨k, .inl (h k hk)⟩
    · exact .inr ⟨n, .inr ⟨_, by rw [setPh_self, h], fun f hf hn => absurd hf hn⟩⟩

theorem MInv.step (I : MInv m w σ) {p : Proc} (hp : Keeps m (σ n) p) : ∃ s', Keeps m s' (p.step w).2 ∧ MInv m (p.step w).1 (setPh σ n s') := by
  generalize hσ : σ n = s at hp
  induction hp generalizing σ with
  | ret r => exact ⟨_, .ret r, by rw [setPh_same hσ]; exact I⟩
  | exists_ h => exact ⟨_, h _, by rw [setPh_same hσ]; exact I⟩
  | isSymlink h => exact ⟨_, h _, by rw [setPh_same hσ]; exact I⟩
  | xattrs h => exact ⟨_, h _, by rw [setPh_same hσ]; exact I⟩
  | size h => exact ⟨_, h _, by rw [setPh_same hσ]; exact I⟩
  | content h => exact ⟨_, h _, by rw [setPh_same hσ]; exact I⟩
  | @setxattr f k hf h =>
    refine ⟨.idle, ?_, ?_⟩
    · cases hent : w.entry <;> simp only [Proc.step, hent] <;> exact h _
    · cases hent : w.entry <;> simp only [Proc.step, hent]
      · rw [setPh_same hσ]; exact I
      · rw [setPh_same hσ]; exact I
      · exact I.field hent hf (fun e => by rw [hσ] at e; cases e) (fun fs e => by rw [hσ] at e; cases e)
  | @readlink k h he =>
    refine ⟨.idle, ?_, by rw [setPh_same hσ]; exact I⟩
    cases hent : w.entry with
    | none => simp only [Proc.step, hent]; exact he _
    | link m' => simp only [Proc.step, hent]; rw [I.link m' hent]; exact h
    | file j => simp only [Proc.step, hent]; exact he _
  | @unlink k h he =>
    have gone : MInv m { w with entry := .none } (setPh σ n .touching) :=
      ⟨fun _ h => (by cases h), fun _ h => (by cases h), fun _ => ⟨n, setPh_self⟩, fun _ h => by cases h⟩
    cases hent : w.entry with
    | none => exact ⟨.idle, by simp only [Proc.step, hent]; exact he _, by simp only [Proc.step, hent]; rw [setPh_same hσ]; exact I⟩
    | link m => exact ⟨.touching, by simp only [Proc.step, hent]; exact h, by simp only [Proc.step, hent]; exact gone⟩
    | file j => exact ⟨.touching, by simp only [Proc.step, hent]; exact h, by simp only [Proc.step, hent]; exact gone⟩
  | @symlink k h =>
    refine ⟨.idle, ?_, ?_⟩
    · cases hent : w.entry <;> simp only [Proc.step, hent] <;> exact h _
    · cases hent : w.entry <;> simp only [Proc.step, hent]
      · exact ⟨fun m' e => (by cases e; rfl), fun _ e => (by cases e), fun e => (by cases e), fun _ e => by cases e⟩
      · rw [setPh_same hσ]; exact I
      · rw [setPh_same hσ]; exact I
  | @openW k h =>
    refine ⟨.idle, ?_, ?_⟩
    · cases hent : w.entry <;> simp only [Proc.step, hent] <;> exact h _
    · cases hent : w.entry <;> simp only [Proc.step, hent]
      · exact I.made hent (.inl fun k hk => by rw [setPh_same hσ]; exact hk)
      · rw [setPh_same hσ]; exact I
      · refine I.keep rfl (fun j => ?_) (fun _ e => by rw [hσ] at e; cases e) (fun _ _ e => by rw [hσ] at e; cases e) (fun _ _ _ e => by rw [hσ] at e; cases e)
        simp only [World.setData]; split
        · rename_i e; rw [e]
        · rfl
  | @write g b k h =>
    refine ⟨.idle, h _, I.keep rfl (fun j => ?_) (fun _ e => by rw [hσ] at e; cases e) (fun _ _ e => by rw [hσ] at e; cases e) (fun _ _ _ e => by rw [hσ] at e; cases e)⟩
    simp only [Proc.step, World.setData]; split
    · rename_i e; rw [e]
    · rfl
  | @utime k h h' =>
    cases hent : w.entry with
    | file j =>
      refine ⟨.storing (storedFields m), by simp only [Proc.step, hent]; exact h', ?_⟩
      exact I.keep rfl (fun _ => rfl) (fun e => by rw [hent] at e; cases e) (fun _ _ _ => .inr rfl) (fun _ _ _ e => by rw [hσ] at e; cases e)
    | none => exact ⟨.touching, by simp only [Proc.step, hent]; exact h, by rw [setPh_same hσ]; exact I⟩
    | link m => exact ⟨.touching, by simp only [Proc.step, hent]; exact h, by rw [setPh_same hσ]; exact I⟩
  | @creat k h he =>
    cases hent : w.entry with
    | file j =>
      refine ⟨.storing (storedFields m), by simp only [Proc.step, hent]; exact h, ?_⟩
      simp only [Proc.step, hent]
      exact I.keep rfl (fun _ => rfl) (fun e => by rw [hent] at e; cases e) (fun _ _ _ => .inr rfl) (fun _ _ _ e => by rw [hσ] at e; cases e)
    | none => exact ⟨.storing (storedFields m), by simp only [Proc.step, hent]; exact h, by simp only [Proc.step, hent]; exact I.made hent (.inr rfl)⟩
    | link m =>
      refine ⟨.idle, by simp only [Proc.step, hent]; exact he _, ?_⟩
      simp only [Proc.step, hent]
      exact I.keep rfl (fun _ => rfl) (fun e => by rw [hent] at e; cases e) (fun _ e => by rw [hent] at e; cases e) (fun _ _ _ e => by rw [hσ] at e; cases e)
  | @sexists fs k h he =>
    cases hent : w.entry with
    | file j => exact ⟨_, by simp only [Proc.step, hent]; exact h, by rw [setPh_same hσ]; exact I⟩
    | none => exact ⟨.idle, by simp only [Proc.step, hent]; exact he, I.keep rfl (fun _ => rfl) (fun _ e => by rw [hσ] at e; cases e) (fun _ e => by rw [hent] at e; cases e) (fun _ _ e => by rw [hent] at e; cases e)⟩
    | link m => exact ⟨.idle, by simp only [Proc.step, hent]; exact he, I.keep rfl (fun _ => rfl) (fun _ e => by rw [hσ] at e; cases e) (fun _ e => by rw [hent] at e; cases e) (fun _ _ e => by rw [hent] at e; cases e)⟩
  | @ssymlink fs k h he =>
    cases hent : w.entry with
    | file j => exact ⟨_, by simp only [Proc.step, hent]; exact h, by rw [setPh_same hσ]; exact I⟩
    | none => exact ⟨_, by simp only [Proc.step, hent]; exact h, by rw [setPh_same hσ]; exact I⟩
    | link m => exact ⟨.idle, by simp only [Proc.step, hent]; exact he, I.keep rfl (fun _ => rfl) (fun _ e => by rw [hσ] at e; cases e) (fun _ e => by rw [hent] at e; cases e) (fun _ _ e => by rw [hent] at e; cases e)⟩
  | @store f fs k hf h he =>
    cases hent : w.entry with
    | file j =>
      refine ⟨_, by simp only [Proc.step, hent]; exact h, ?_⟩
      simp only [Proc.step, hent]
      exact I.field hent hf (fun e => by rw [hσ] at e; cases e) (fun fs' e => by rw [hσ] at e; cases e; exact .inr ⟨_, rfl, rfl⟩)
    | none =>
      refine ⟨.idle, by simp only [Proc.step, hent]; exact he _, ?_⟩
      simp only [Proc.step, hent]
      exact I.keep rfl (fun _ => rfl) (fun _ e => by rw [hσ] at e; cases e) (fun _ e => by rw [hent] at e; cases e) (fun _ _ e => by rw [hent] at e; cases e)
    | link m =>
      refine ⟨.idle, by simp only [Proc.step, hent]; exact he _, ?_⟩
      simp only [Proc.step, hent]
      exact I.keep rfl (fun _ => rfl) (fun _ e => by rw [hσ] at e; cases e) (fun _ e => by rw [hent] at e; cases e) (fun _ _ e => by rw [hent] at e; cases e)
  | @stored p hp ih =>
    have I' : MInv m w (setPh σ n .idle) :=
      I.keep rfl (fun _ => rfl) (fun _ e => by rw [hσ] at e; cases e) (fun _ _ e => by rw [hσ] at e; cases e) (fun _ fs _ e => by rw [hσ] at e; cases e; exact .inr rfl)
    obtain ⟨s', a, b⟩ := ih I' setPh_self
    refine ⟨s', a, ?_⟩
    have : setPh (setPh σ n .idle) n s' = setPh σ n s' := by
      funext k; by_cases hk : k = n <;> simp [setPh, hk]
    rw [this] at b; exact b

theorem MInv.calls : ∀ (ns : List Nat) {w : World} {ps : Nat → Proc} {σ : Nat → Phase}, MInv m w σ → (∀ n, Keeps m (σ n) (ps n)) →
    ∃ σ', MInv m (calls ns w ps).1 σ' ∧ ∀ n, Keeps m (σ' n) ((calls ns w ps).2 n)
  | [], _, _, σ, I, h => ⟨σ, I, h⟩
  | n :: ns, w, ps, σ, I, h => by
    obtain ⟨s', a, b⟩ := I.step (n := n) (h n)
    refine MInv.calls ns (w := (call n w ps).1) (ps := (call n w ps).2) b fun k => ?_
    by_cases hk : k = n
    · subst hk; rw [setPh_self]; simp only [call, if_true]; exact a
    · rw [setPh_ne hk]; simp only [call, if_neg hk]; exact h k

/-- When no process can add a mark, and all have read the metadata of the link, at the end there is the link, or a file with all of the data and all
of the metadata. -/
theorem C126_link (data : Bytes) (m : Meta) (l : List Str) (hm : metaBool m = true) (hl : m .errors = .strs l)
    (hc : lit "checksum-mismatch" ∈ l ∨ m .checksum = .none) (w : World) (hw : w.entry = .link m)
    (hx : ∀ j m, (w.node j).meta_ = some m → ∃ l, m .errors = .strs l) (ps : Nat → Proc)
    (hps : ∀ n, ps n = .ret .returned ∨ ∃ E cs, cs ≠ [] ∧ cs.flatten = data ∧ E.replace m m = .ok false ∧ ps n = fetchWith E cs m)
    (ns : List Nat) (hend : ∀ n, ((calls ns w ps).2 n).ended = true) :
    (calls ns w ps).1.entry = .link m ∨ ∃ j, (calls ns w ps).1.entry = .file j ∧ ((calls ns w ps).1.node j).data = data ∧
      ∀ f, (((calls ns w ps).1.node j).meta_.getD blank) f = if m f = .none ∨ (m f).emptyIterable then blank f else m f := by
  have hmk : marked m = true ∨ m .checksum = .none := hc.imp (fun h => by simp only [marked, hl]; unfold mismatch; simpa using h) id
  have hp : Proper m := ⟨l, hl⟩
  obtain ⟨h1, h2⟩ := content_of data w ps (fun n => by
      rcases hps n with e | ⟨E, cs, hne, hd, _, e⟩
      · rw [e]; exact .ret _
      · rw [e]; exact ok_fetchWith E hne hd hp)
    (fun e => by rw [hw] at e; cases e) (fun j e => by rw [hw] at e; cases e) (fun m' e => by rw [hw] at e; cases e; exact hp) hx ns hend
  have I : MInv m w fun _ => .idle :=
    ⟨fun m' e => (by rw [hw] at e; cases e; rfl), fun _ e => (by rw [hw] at e; cases e), fun e => (by rw [hw] at e; cases e), fun _ e => by rw [hw] at e; cases e⟩
  obtain ⟨σ, I', h⟩ := I.calls ns (ps := ps) fun n => by
    rcases hps n with e | ⟨E, cs, hne, hd, hE, e⟩
    · rw [e]; exact .ret _
    · rw [e]; exact keeps_fetch E cs hE hm hmk
  cases hent : (calls ns w ps).1.entry with
  | none => exact absurd hent h1
  | link m' => exact .inl (by rw [I'.link m' hent])
  | file j =>
    refine .inr ⟨j, rfl, ?_, ?_⟩
    · rcases h2 j hent with e | ⟨e, _⟩
      · exact e
      · rw [hw] at e; cases e
    · have hs : Stored m [] ((calls ns w ps).1.node j).meta_ := by
        rcases I'.file j hent with a | ⟨n, hn⟩
        · exact a
        · have hk := h n
          have he := hend n
          generalize (calls ns w ps).2 n = p at hk he
          rcases hn with e | ⟨fs, e, hs⟩
          · rw [e] at hk; cases hk <;> cases he
          · rw [e] at hk
            cases hk with
            | stored => exact hs
            | _ => cases he
      intro f
      by_cases hf : f ∈ storedFields m
      · obtain ⟨m', e, hm'⟩ := hs f hf (by simp)
        simp [storedFields] at hf
        rw [e, if_neg (by simp [hf.2.1, hf.2.2])]
        exact hm'
      · have hn : m f = .none ∨ (m f).emptyIterable = true := by
          simp [storedFields, mem_all f] at hf
          by_cases h0 : m f = .none
          · exact .inl h0
          · exact .inr (hf h0)
        rw [if_pos hn]
        cases hmeta : ((calls ns w ps).1.node j).meta_ with
        | none => rfl
        | some m' =>
          have := I'.pure j hent m' hmeta f
          rw [if_neg hf] at this
          rcases this with e | e <;> exact e

def noSum : Meta := Verif.setField record .checksum .none
def readers : Nat → Proc := fun n => if n < 2 then fetchWith asIs [[1], [2]] noSum else .ret .returned
def onBare : World := ⟨.link noSum, fun _ => ⟨[], none⟩, 0⟩

/-- `C126_link`: the second process removes the file that the first has created, and creates it again. -/
example : let s := calls (turn 0 2 ++ turn 1 2 ++ turn 0 3 ++ turn 1 3 ++ turn 0 40 ++ turn 1 40) onBare readers
    s.1.entry = .file 1 ∧ (s.1.node 1).data = [1, 2] ∧ (s.1.node 1).meta_ = some noSum := by decide +kernel

example : let s := calls (turn 0 2 ++ turn 1 2 ++ turn 0 3 ++ turn 1 3 ++ turn 0 40 ++ turn 1 40) onBare readers
    s.1.entry = .link noSum ∨ ∃ j, s.1.entry = .file j ∧ (s.1.node j).data = [1, 2] ∧
      ∀ f, ((s.1.node j).meta_.getD blank) f = if noSum f = .none ∨ (noSum f).emptyIterable then blank f else noSum f :=
  C126_link [1, 2] noSum [] (by decide) rfl (.inr rfl) onBare rfl (fun j m h => by cases h) readers
    (fun n => by
      unfold readers
      split
      · exact .inr ⟨_, _, by simp, rfl, by decide, rfl⟩
      · exact .inl rfl) _ (fun n => by
        by_cases h : n < 2
        · match n, h with
          | 0, _ => decide +kernel
          | 1, _ => decide +kernel
        · rw [calls_other _ _ _ (fun e => h ((by decide : ∀ n ∈ turn 0 2 ++ turn 1 2 ++ turn 0 3 ++ turn 1 3 ++ turn 0 40 ++ turn 1 40, n < 2) n e))]
          simp [readers, h, Proc.ended])

end Verif.Race
