import Verif.Ptron
import Verif.Spec.Ptron
import Verif.Props.Lz4
import Verif.Props.Binary
/-! Lemmas about Picotron cartridges in ROM form. -/
namespace Verif.Ptron
open Verif.PtronFormat

theorem packU4 {n : Nat} (h : n < 256 ^ 4) :
    packU false 4 n = some [n % 256, n / 256 % 256, n / 256 ^ 2 % 256, n / 256 ^ 3] := by
  unfold packU
  rw [if_pos ⟨by omega, by exact_mod_cast h⟩]
  simp only [Int.toNat_natCast, leBytes, Option.some.injEq]
  simp only [Bool.false_eq_true, if_false, List.cons.injEq, and_true, true_and]
  refine ⟨?_, ?_⟩ <;> omega

theorem packU4_none {n : Nat} (h : ¬ n < 256 ^ 4) : packU false 4 n = none := by
  unfold packU
  rw [if_neg (by omega)]

theorem unpackU4 {n : Nat} (h : n < 256 ^ 4) (rest : List Nat) :
    unpackU false 4 ([n % 256, n / 256 % 256, n / 256 ^ 2 % 256, n / 256 ^ 3] ++ rest) = some ((n : Int), rest) :=
  ((C52_unsigned false 4 n).2 _ (packU4 h)).2.2 rest

theorem packU1 {n : Nat} : packU false 1 n = if n < 256 then some [n] else none := by
  unfold packU
  by_cases h : n < 256
  · rw [if_pos h, if_pos ⟨by omega, by simp; omega⟩]
    simp [leBytes]; omega
  · rw [if_neg h, if_neg (by simp; omega)]

theorem unpackU1 (n : Nat) (rest : List Nat) : unpackU false 1 (n :: rest) = some ((n : Int), rest) := by
  simp [unpackU, leValue]

theorem readBytes_append (a rest : List Nat) : readBytes a.length false (a ++ rest) = some (a, rest) := by
  simp [readBytes]

theorem readZ_append {path : List Nat} (h : 0 ∉ path) (rest : List Nat) : readZ (path ++ 0 :: rest) = some (path, rest) := by
  induction path with
  | nil => simp [readZ]
  | cons c path ih =>
    have hc : c ≠ 0 := fun e => h (by simp [e])
    rw [List.cons_append, readZ, if_neg hc, ih (fun h' => h (List.mem_cons_of_mem _ h'))]
    rfl

theorem endsSlash_iff (path : List Nat) : endsSlash path = true ↔ ∃ p, path = p ++ [0x2f] := by
  unfold endsSlash
  rw [beq_iff_eq]
  constructor
  · intro h
    obtain ⟨p, hp⟩ := List.getLast?_eq_some_iff.mp h
    exact ⟨p, hp⟩
  · rintro ⟨p, rfl⟩; simp

theorem readData_short {data : List Nat} (h : data.length < 255) (rest : List Nat) :
    readData (data.length :: data ++ rest) = some (data, rest) := by
  unfold readData
  simp only [List.cons_append, unpackU1, Option.bind_eq_bind, Option.bind_some]
  rw [if_neg (by omega)]
  simp only [Int.toNat_natCast]
  exact readBytes_append data rest

theorem readData_long {data : List Nat} (h : data.length < 256 ^ 4) (rest : List Nat) :
    readData ([255, data.length % 256, data.length / 256 % 256, data.length / 256 ^ 2 % 256,
        data.length / 256 ^ 3] ++ (data ++ rest)) = some (data, rest) := by
  unfold readData
  simp only [List.cons_append, unpackU1, Option.bind_eq_bind, Option.bind_some]
  rw [if_pos (by decide)]
  have := unpackU4 h (data ++ rest)
  simp only [List.cons_append, List.nil_append] at this ⊢
  rw [this]
  simp only [Option.bind_some, Int.toNat_natCast]
  exact readBytes_append data rest

theorem setFile_new {files : Files} {path : List Nat} {data : Option (List Nat)} (h : path ∉ files.map (·.1)) :
    setFile files path data = files ++ [(path, data)] := by
  unfold setFile
  rw [if_neg]
  intro e
  obtain ⟨f, hf, e⟩ := List.any_eq_true.mp e
  exact h (List.mem_map.mpr ⟨f, hf, by simpa using e⟩)

theorem readFiles_entries {files : Files} {body : List Nat} (h : Entries files body) :
    ∀ (fuel : Nat) (acc : Files), body.length ≤ fuel → ((acc ++ files).map (·.1)).Nodup →
      readFiles fuel body acc = some (acc ++ files) := by
  induction h with
  | nil => intro fuel acc _ _; cases fuel <;> simp [readFiles]
  | @cons f fs b bs h hs ih =>
    intro fuel acc hf hn
    have hnew : f.1 ∉ acc.map (·.1) := by
      intro hm
      rw [List.map_append, List.nodup_append] at hn
      exact hn.2.2 f.1 hm f.1 (by simp) rfl
    have step : ∀ fuel', (b ++ bs).length ≤ fuel' + 1 → b ≠ [] →
        readFiles fuel' bs (setFile acc f.1 f.2) = some (acc ++ f :: fs) := by
      intro fuel' hf' hne
      rw [setFile_new hnew, ih fuel' (acc ++ [(f.1, f.2)]) ?_ ?_]
      · simp
      · have := List.length_pos_iff.mpr hne
        rw [List.length_append] at hf'; omega
      · simpa using hn
    cases fuel with
    | zero =>
      exfalso
      cases h <;> simp at hf
    | succ fuel =>
      cases h with
      | @dir path h0 hs' =>
        have e := step fuel hf (by simp)
        have hz := readZ_append h0 bs
        have hsl := (endsSlash_iff path).mpr hs'
        have : path ++ [0] ++ bs = path ++ 0 :: bs := by simp
        rw [this]
        generalize hx : path ++ 0 :: bs = x at hz
        cases x with
        | nil => simp at hx
        | cons c cs =>
          rw [readFiles, hz]
          simp only [Option.bind_eq_bind, Option.bind_some, hsl, if_true]
          exact e
      | @short path data h0 hs' hl =>
        have e := step fuel hf (by simp)
        have hz := readZ_append h0 (data.length :: data ++ bs)
        have hsl : endsSlash path = false := by
          rw [← Bool.not_eq_true]; exact fun h => hs' ((endsSlash_iff path).mp h)
        have : path ++ 0 :: data.length :: data ++ bs = path ++ 0 :: (data.length :: data ++ bs) := by simp
        rw [this]
        generalize hx : path ++ 0 :: (data.length :: data ++ bs) = x at hz
        cases x with
        | nil => simp at hx
        | cons c cs =>
          rw [readFiles, hz]
          simp only [Option.bind_eq_bind, Option.bind_some, hsl, Bool.false_eq_true, if_false, readData_short hl]
          exact e
      | @long path data h0 hs' hl =>
        have e := step fuel hf (by simp)
        have hz := readZ_append h0 ([255, data.length % 256, data.length / 256 % 256, data.length / 256 ^ 2 % 256,
          data.length / 256 ^ 3] ++ (data ++ bs))
        have hsl : endsSlash path = false := by
          rw [← Bool.not_eq_true]; exact fun h => hs' ((endsSlash_iff path).mp h)
        have : path ++ [0, 255, data.length % 256, data.length / 256 % 256, data.length / 256 ^ 2 % 256,
            data.length / 256 ^ 3] ++ data ++ bs = path ++ 0 :: ([255, data.length % 256, data.length / 256 % 256,
            data.length / 256 ^ 2 % 256, data.length / 256 ^ 3] ++ (data ++ bs)) := by simp
        rw [this]
        generalize hx : path ++ 0 :: ([255, data.length % 256, data.length / 256 % 256,
            data.length / 256 ^ 2 % 256, data.length / 256 ^ 3] ++ (data ++ bs)) = x at hz
        cases x with
        | nil => simp at hx
        | cons c cs =>
          rw [readFiles, hz]
          simp only [Option.bind_eq_bind, Option.bind_some, hsl, Bool.false_eq_true, if_false, readData_long hl]
          exact e

theorem insertFile_perm (f : List Nat × Option (List Nat)) (files : Files) : (insertFile f files).Perm (f :: files) := by
  induction files with
  | nil => exact .refl _
  | cons g gs ih =>
    rw [insertFile]
    split
    · exact .refl _
    · exact (ih.cons g).trans (.swap f g gs)

theorem sortFiles_perm (files : Files) : (sortFiles files).Perm files := by
  induction files with
  | nil => exact .refl _
  | cons f fs ih => exact (insertFile_perm f _).trans (ih.cons f)

/-- What a file must satisfy to be written and read back. -/
def FileOk (f : List Nat × Option (List Nat)) : Prop :=
  (f.2 = none ↔ ∃ p, f.1 = p ++ [0x2f]) ∧ ∀ d, f.2 = some d → d.length < 256 ^ 4

theorem fileBytes_iff (f : List Nat × Option (List Nat)) : (fileBytes f).isSome ↔ FileOk f := by
  obtain ⟨path, data⟩ := f
  unfold fileBytes FileOk
  rw [← endsSlash_iff]
  cases data with
  | none => cases endsSlash path <;> simp
  | some d =>
    cases endsSlash path with
    | true => simp
    | false =>
      rw [if_neg (by simp)]
      simp only [reduceCtorEq, Option.some.injEq, forall_eq', Bool.false_eq_true, true_and]
      split
      · rename_i h
        have : d.length < 256 ^ 4 := by omega
        simpa using this
      · rename_i h
        by_cases hd : d.length < 256 ^ 4
        · rw [packU4 hd]; simpa using hd
        · rw [packU4_none hd]; simpa using hd

theorem fileBytes_entry {f : List Nat × Option (List Nat)} (h0 : 0 ∉ f.1) {b : List Nat} (h : fileBytes f = some b) :
    Entry f b := by
  obtain ⟨path, data⟩ := f
  have hok := (fileBytes_iff (path, data)).mp (by simp [h])
  unfold fileBytes at h
  split at h
  · simp at h
  · cases data with
    | none =>
      simp at h; subst h
      exact .dir h0 (hok.1.mp rfl)
    | some d =>
      have hs : ¬ ∃ p, path = p ++ [0x2f] := fun hp => by simpa using hok.1.mpr hp
      have hd := hok.2 d rfl
      simp only at h
      split at h
      · rename_i hl
        simp at h; subst h
        exact .short h0 hs hl
      · rw [packU4 hd] at h
        simp at h; subst h
        have := Entry.long h0 hs hd
        simpa using this

theorem filesBytes_isSome (files : Files) : (filesBytes files).isSome ↔ ∀ f ∈ files, FileOk f := by
  induction files with
  | nil => simp [filesBytes]
  | cons f fs ih =>
    have h1 := fileBytes_iff f
    rw [filesBytes]
    cases hf : fileBytes f with
    | none => rw [hf] at h1; simp at h1; simp [h1]
    | some a =>
      rw [hf] at h1; simp at h1
      cases hfs : filesBytes fs with
      | none => rw [hfs] at ih; simpa [h1] using ih
      | some b => rw [hfs] at ih; simpa [h1] using ih

theorem filesBytes_entries {files : Files} (h0 : ∀ f ∈ files, 0 ∉ f.1) : ∀ {b : List Nat}, filesBytes files = some b →
    Entries files b := by
  induction files with
  | nil => intro b h; simp [filesBytes] at h; subst h; exact .nil
  | cons f fs ih =>
    intro b h
    rw [filesBytes] at h
    cases hf : fileBytes f with
    | none => simp [hf] at h
    | some a =>
      cases hfs : filesBytes fs with
      | none => simp [hf, hfs] at h
      | some c =>
        simp [hf, hfs] at h
        subst h
        exact .cons (fileBytes_entry (h0 f (by simp)) hf) (ih (fun g hg => h0 g (by simp [hg])) hfs)

theorem entry_bytes {f : List Nat × Option (List Nat)} {b : List Nat} (h : Entry f b) (h1 : ∀ c ∈ f.1, c < 256)
    (h2 : ∀ d, f.2 = some d → ∀ c ∈ d, c < 256) : ∀ c ∈ b, c < 256 := by
  intro c hc
  cases h with
  | dir h0 hs =>
    simp at hc
    rcases hc with hc | rfl
    · exact h1 c hc
    · omega
  | @short path data h0 hs hl =>
    simp at hc
    rcases hc with hc | rfl | rfl | hc
    · exact h1 c hc
    · omega
    · omega
    · exact h2 data rfl c hc
  | @long path data h0 hs hl =>
    simp only [List.mem_append, List.mem_cons, List.not_mem_nil, or_false] at hc
    rcases hc with (hc | rfl | rfl | rfl | rfl | rfl | rfl) | hc
    · exact h1 c hc
    all_goals first
      | omega
      | exact h2 data rfl c hc

theorem entries_bytes {files : Files} {b : List Nat} (h : Entries files b) (h1 : ∀ f ∈ files, ∀ c ∈ f.1, c < 256)
    (h2 : ∀ f ∈ files, ∀ d, f.2 = some d → ∀ c ∈ d, c < 256) : ∀ c ∈ b, c < 256 := by
  induction h with
  | nil => simp
  | cons h hs ih =>
    intro c hc
    rcases List.mem_append.mp hc with hc | hc
    · exact entry_bytes h (h1 _ (by simp)) (h2 _ (by simp)) c hc
    · exact ih (fun f hf => h1 f (by simp [hf])) (fun f hf => h2 f (by simp [hf])) c hc

end Verif.Ptron
