import Verif.Model.Tag
import Verif.Spec.Genres
/-
C56: the table of standard genres.
-/
namespace Mp4.Props
open Mp4 Spec

/-- The table as a whole: two names per code. -/
theorem genre_table : ∀ n < 80, n ≠ 60 →
    (stdGenreName (n + 1)).map normal = (id3v1[n]?).map fun s => normal s.toList := by
  decide +kernel

/-- **C56**, what holds: codes 1 to 80, and only these, have a name, and up to case, spaces and punctuation it is the one of ID3v1, except
for code 61. Missing: code 61, and the exact spelling of codes 8 and 72 (`C56_refuted`). -/
theorem C56_partial (c : Nat) : ((stdGenreName c).isSome ↔ 1 ≤ c ∧ c ≤ 80) ∧
    (∀ s, stdGenreName c = some s → c ≠ 61 → (id3v1[c - 1]?).map (fun s => normal s.toList) = some (normal s)) := by
  have hlen : STANDARD_GENRES.length = 80 := by decide +kernel
  have key : (stdGenreName c).isSome ↔ 1 ≤ c ∧ c ≤ 80 := by
    unfold stdGenreName
    rw [hlen]
    split
    · rename_i h
      rw [Option.isSome_map, List.getElem?_eq_getElem (by omega)]
      simp; omega
    · simp; omega
  refine ⟨key, fun s hs h61 => ?_⟩
  have h := key.mp (by rw [hs]; rfl)
  have := genre_table (c - 1) (by omega) (by omega)
  rw [show c - 1 + 1 = c by omega, hs] at this
  exact this.symm

example : stdGenreName 15 = some "Rhythm and Blues".toList ∧ stdGenreName 79 = some "Rock ’n’ Roll".toList ∧
    normal "Rock ’n’ Roll".toList = "rocknroll".toList ∧ stdGenreName 81 = none ∧ stdGenreName 0 = none := by decide +kernel

/-- No two codes have the same name (so that a name determines the code). -/
theorem C56_distinct (c d : Nat) (s : Str) (hc : stdGenreName c = some s) (hd : stdGenreName d = some s) : c = d := by
  have h1 := (C56_partial c).1.mp (by rw [hc]; rfl)
  have h2 := (C56_partial d).1.mp (by rw [hd]; rfl)
  have key : ∀ a < 80, ∀ b < 80, stdGenreName (a + 1) = stdGenreName (b + 1) → a = b := by decide +kernel
  have := key (c - 1) (by omega) (d - 1) (by omega) (by
    rw [show c - 1 + 1 = c by omega, show d - 1 + 1 = d by omega, hc, hd])
  omega

/-- **C56 is false**: number 60 of ID3v1 is `Top 40`; the names of 7 and 71 contain a comma that does not belong there. -/
theorem C56_refuted : stdGenreName 61 = some "Top 41".toList ∧ id3v1[60]? = some "Top 40" ∧
    stdGenreName 8 = some "Hip,-Hop".toList ∧ id3v1[7]? = some "Hip-Hop" ∧
    stdGenreName 72 = some "Lo,-Fi".toList ∧ id3v1[71]? = some "Lo-Fi" := by decide +kernel

end Mp4.Props
