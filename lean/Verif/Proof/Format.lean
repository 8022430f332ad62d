import Verif.Model.Format
import Verif.Spec.Format

/-! # Printing to a formatter that may fail -/

namespace Mp4
open Spec

variable {σ : Type} {write : Str → σ → Bool × σ}

theorem Accepts_append {s s1 s2 : σ} {ps qs : List Str} (h : Accepts write s ps s1) (h' : Accepts write s1 qs s2) :
    Accepts write s (ps ++ qs) s2 := by
  induction h with
  | nil => exact h'
  | cons h1 _ ih => exact .cons h1 (ih h')

theorem delivers_done : Delivers write [] Fm.done := fun s => .inl ⟨[], s, .nil, rfl, rfl⟩

theorem delivers_andThen {a b : Fm σ} {x y : Str} (ha : Delivers write x a) (hb : Delivers write y b) :
    Delivers write (x ++ y) (a.andThen b) := by
  intro s
  rcases ha s with ⟨ps, s1, h1, h2, h3⟩ | ⟨ps, p, rest, s1, s2, h1, h2, h3, h4⟩
  · rcases hb s1 with ⟨qs, s2, h4, h5, h6⟩ | ⟨qs, p, rest, s2, s3, h4, h5, h6, h7⟩
    · exact .inl ⟨ps ++ qs, s2, Accepts_append h1 h4, by rw [List.flatten_append, h2, h5], by simp only [Fm.andThen, h3, h6]⟩
    · refine .inr ⟨ps ++ qs, p, rest, s2, s3, Accepts_append h1 h4, h5, ?_, by simp only [Fm.andThen, h3, h7]⟩
      rw [List.flatten_append, h2, ← h6]; simp only [List.append_assoc]
  · refine .inr ⟨ps, p, rest ++ y, s1, s2, h1, h2, ?_, by simp only [Fm.andThen, h4]⟩
    rw [← h3]; simp only [List.append_assoc]

theorem delivers_each {α} {f : α → Fm σ} {x : α → Str} : ∀ {l : List α}, (∀ a ∈ l, Delivers write (x a) (f a)) →
    Delivers write (l.flatMap x) (Fm.each f l)
  | [], _ => delivers_done
  | a :: l, h => by
    rw [List.flatMap_cons]
    exact delivers_andThen (h a List.mem_cons_self) (delivers_each fun b hb => h b (List.mem_cons_of_mem _ hb))

theorem delivers_write (p : Str) : Delivers write p (write p) := by
  intro s
  cases h : write p s with
  | mk ok s' =>
    cases ok with
    | true => exact .inl ⟨[p], s', .cons h .nil, by simp, rfl⟩
    | false => exact .inr ⟨[], p, [], s, s', .nil, h, by simp, rfl⟩

/-- The texts of the lines in front of the freeform entries. -/
def formatLines (t : Tag) : List Str := [
  t.formatMulti "album_artist",
  t.formatMulti "artist",
  t.formatMulti "composer",
  t.formatMulti "lyricist",
  t.formatSingle "album",
  t.formatSingle "title",
  t.formatGenres,
  t.formatSingle "year",
  t.formatPair "track".toList trackI,
  t.formatPair "disc".toList discI,
  t.formatArtworks,
  t.formatAdvisoryRating,
  t.formatMediaType,
  t.formatMulti "grouping",
  t.formatMulti "description",
  t.formatMulti "comment",
  t.formatMulti "category",
  t.formatMulti "keyword",
  t.formatSingle "copyright",
  t.formatSingle "encoder",
  t.formatSingle "tv_show_name",
  t.formatSingle "tv_network_name",
  t.formatSingle "tv_episode_name",
  t.formatInt "tv_episode" 4,
  t.formatInt "tv_season" 4,
  t.formatInt "bpm" 2,
  t.formatSingle "movement",
  t.formatSingle "work",
  t.formatInt "movement_count" 2,
  t.formatInt "movement_index" 2,
  t.formatDuration,
  t.formatChannelConfig,
  t.formatSampleRate,
  t.formatAvgBitrate,
  t.formatMaxBitrate,
  t.formatFlag "show_movement",
  t.formatFlag "gapless_playback",
  t.formatFlag "compilation",
  t.formatSingle "isrc",
  t.formatSingle "lyrics"]

theorem display_formatLines (esc : Char → Str) (t : Tag) : t.display esc =
    (formatLines t).flatten ++ (t.atoms.flatMap (AtomData.formatFreeform esc) ++ line ("filetype: ".toList ++ t.filetype)) := by
  unfold Tag.display formatLines
  simp only [List.flatten_cons, List.flatten_nil, List.append_nil, List.append_assoc]

theorem delivers_seq {a : Fm σ} {l : List (Fm σ)} {x : Str} {xs : List Str} (h : Delivers write x a) (hl : Delivers write xs.flatten (Fm.each id l)) :
    Delivers write (x :: xs).flatten (Fm.each id (a :: l)) := by
  rw [List.flatten_cons]
  exact delivers_andThen h hl

variable {c : Formatter σ} (hc : ∀ s, (c.cut s).flatten = s)
include hc

theorem delivers_text (s : Str) : Delivers c.write s (c.text s) := by
  have := delivers_each (write := c.write) (f := c.write) (x := id) (l := c.cut s) fun p _ => delivers_write p
  rwa [List.flatMap_id, hc] at this

theorem delivers_ln {m : Fm σ} {x : Str} (h : Delivers c.write x m) : Delivers c.write (line x) (c.ln m) :=
  delivers_andThen h (delivers_text hc _)

theorem delivers_cast {m : Fm σ} {x y : Str} (h : Delivers c.write x m) (he : x = y) : Delivers c.write y m := he ▸ h

theorem delivers_sampleRate (r : SampleRate) : Delivers c.write r.display (SampleRate.fmt c r) :=
  delivers_andThen (delivers_text hc _) (delivers_text hc _)

theorem delivers_data (esc : Char → Str) (d : Data) : Delivers c.write (d.debug esc) (d.fmt c esc) := by
  have three : ∀ x y z : Str, Delivers c.write (x ++ y ++ z) ((c.text x).andThen ((c.text y).andThen (c.text z))) := fun x y z =>
    delivers_cast hc (delivers_andThen (delivers_text hc x) (delivers_andThen (delivers_text hc y) (delivers_text hc z)))
      (List.append_assoc x y z).symm
  cases d with
  | reserved d => exact three _ _ _
  | utf8 d => exact three _ _ _
  | utf16 d => exact three _ _ _
  | jpeg d => exact delivers_text hc _
  | png d => exact delivers_text hc _
  | beSigned d => exact three _ _ _
  | bmp d => exact delivers_text hc _

theorem delivers_ident (i : DataIdent) : Delivers c.write i.display (i.fmt c) := by
  cases i with
  | fourcc f => exact delivers_text hc _
  | freeform m n =>
    exact delivers_cast hc (delivers_andThen (delivers_text hc _) (delivers_andThen (delivers_text hc _)
      (delivers_andThen (delivers_text hc _) (delivers_text hc _)))) (by simp only [DataIdent.display, List.append_assoc])

theorem delivers_named {p : Fm σ} {x name : Str} (h : Delivers c.write x p) :
    Delivers c.write (line (name ++ ": ".toList ++ x)) (c.ln ((c.text name).andThen ((c.text ": ".toList).andThen p))) := by
  refine delivers_ln hc (delivers_cast hc (delivers_andThen (delivers_text hc _) (delivers_andThen (delivers_text hc _) h)) ?_)
  rw [List.append_assoc]

theorem delivers_opt {α} {p : α → Fm σ} {x : α → Str} (h : ∀ v, Delivers c.write (x v) (p v)) (name : Str) (v : Option α) :
    Delivers c.write (optLine name (v.map x)) (c.optLine name p v) := by
  cases v with
  | none => exact delivers_done
  | some v => exact delivers_named hc (h v)

theorem delivers_then_done {m : Fm σ} {x : Str} (h : Delivers c.write x m) : Delivers c.write x (m.andThen .done) :=
  delivers_cast hc (delivers_andThen h delivers_done) (List.append_nil x)

theorem delivers_list {α} {p : α → Fm σ} {x : α → Str} (h : ∀ v, Delivers c.write (x v) (p v)) (name plural : Str) (vs : List α)
    (first : Option α) : Delivers c.write (listLines name plural (vs.map x) (first.map x)) (c.listLines name plural p vs first) := by
  refine delivers_then_done hc ?_
  unfold listLines
  rw [List.length_map]
  split
  · refine delivers_cast hc (delivers_andThen (delivers_ln hc (delivers_andThen (delivers_text hc _) (delivers_text hc _)))
      (delivers_each (x := fun v => line ("    ".toList ++ x v)) fun v _ => delivers_ln hc (delivers_andThen (delivers_text hc _) (h v)))) ?_
    rw [List.flatMap_map]
  · cases first with
    | none => exact delivers_done
    | some v => exact delivers_named hc (h v)

theorem delivers_single (t : Tag) (vi : String) : Delivers c.write (t.formatSingle vi) (t.fmtSingle c vi) := by
  have := delivers_opt hc (x := id) (fun s => delivers_text hc s) (valueName vi) (t.getString (macroIdent! vi))
  rwa [Option.map_id_fun, id] at this

theorem delivers_strings (name plural : Str) (vs : List Str) (first : Option Str) :
    Delivers c.write (listLines name plural vs first) (c.listLines name plural c.text vs first) := by
  have := delivers_list hc (x := id) (fun s => delivers_text hc s) name plural vs first
  rwa [Option.map_id_fun, id, List.map_id] at this

theorem delivers_flag (t : Tag) (vi : String) : Delivers c.write (t.formatFlag vi) (t.fmtFlag c vi) := by
  unfold Tag.formatFlag Tag.fmtFlag
  cases t.getFlag (macroIdent! vi) with
  | true => exact delivers_ln hc (delivers_text hc _)
  | false => exact delivers_done

theorem delivers_int (t : Tag) (vi : String) (size : Nat) : Delivers c.write (t.formatInt vi size) (t.fmtInt c vi size) :=
  delivers_opt hc (fun n => delivers_text hc (decimal n)) _ _

theorem delivers_pair (t : Tag) (name : Str) (i : Ident) : Delivers c.write (t.formatPair name i) (t.fmtPair c name i) := by
  unfold Tag.formatPair Tag.fmtPair
  split <;> rename_i h <;> simp only [h]
  · exact delivers_ln hc (delivers_cast hc (delivers_andThen (delivers_text hc _) (delivers_andThen (delivers_text hc _)
      (delivers_andThen (delivers_text hc _) (delivers_text hc _)))) (by simp only [List.append_assoc]))
  · exact delivers_ln hc (delivers_andThen (delivers_text hc _) (delivers_text hc _))
  · exact delivers_ln hc (delivers_andThen (delivers_text hc _) (delivers_text hc _))
  · exact delivers_done

theorem delivers_artwork (i : Img) : Delivers c.write (line (formatArtwork i)) (fmtArtwork c i) := by
  unfold formatArtwork fmtArtwork line
  rw [List.append_assoc]
  refine delivers_andThen ?_ (delivers_then_done hc ?_)
  · cases i.fmt <;> exact delivers_text hc _
  · dsimp only
    split
    · exact delivers_ln hc (delivers_andThen (delivers_text hc _) (delivers_text hc _))
    · split
      all_goals exact delivers_ln hc (delivers_cast hc (delivers_andThen (delivers_text hc _) (delivers_andThen (delivers_text hc _)
        (delivers_text hc _))) (by simp only [List.append_assoc]))

theorem delivers_artworks (t : Tag) : Delivers c.write t.formatArtworks (t.fmtArtworks c) := by
  refine delivers_then_done hc ?_
  unfold Tag.formatArtworks listLines
  rw [List.length_map]
  split
  · refine delivers_cast hc (delivers_andThen (delivers_ln hc (delivers_text hc _)) (delivers_each
      (x := fun a => "    ".toList ++ line (formatArtwork a)) fun a _ => delivers_andThen (delivers_text hc _) (delivers_artwork hc a))) ?_
    rw [List.flatMap_map]
    congr 1
  · cases t.artwork with
    | none => exact delivers_done
    | some a =>
      refine delivers_cast hc (delivers_andThen (delivers_text hc _) (delivers_artwork hc a)) ?_
      show _ = line _
      simp only [line, List.append_assoc]
      rw [← List.append_assoc "artwork".toList]
      rfl

theorem delivers_freeform (esc : Char → Str) (a : AtomData) : Delivers c.write (a.formatFreeform esc) (a.fmtFreeform c esc) := by
  unfold AtomData.formatFreeform AtomData.fmtFreeform
  split <;> rename_i h <;> simp only [h]
  · exact delivers_andThen (delivers_ln hc (delivers_andThen (delivers_ident hc _) (delivers_text hc _)))
      (delivers_each fun d _ => delivers_ln hc (delivers_andThen (delivers_text hc _) (delivers_data hc esc d)))
  · exact delivers_done

theorem delivers_error (x : Str) (k : ErrKind) (d : Str) : Delivers c.write (errorText x k d) (errorFmt c x k d) := by
  unfold errorText errorFmt
  split
  · exact delivers_text hc _
  · exact delivers_cast hc (delivers_andThen (delivers_text hc _) (delivers_andThen (delivers_text hc _) (delivers_text hc _)))
      (by simp only [List.append_assoc])

theorem delivers_lines (t : Tag) : Delivers c.write (formatLines t).flatten (Fm.each id (t.fmtLines c)) := by
  unfold formatLines Tag.fmtLines
  refine delivers_seq (delivers_strings hc _ _ _ _) ?_
  refine delivers_seq (delivers_strings hc _ _ _ _) ?_
  refine delivers_seq (delivers_strings hc _ _ _ _) ?_
  refine delivers_seq (delivers_strings hc _ _ _ _) ?_
  refine delivers_seq (delivers_single hc t _) ?_
  refine delivers_seq (delivers_single hc t _) ?_
  refine delivers_seq (delivers_strings hc _ _ _ _) ?_
  refine delivers_seq (delivers_single hc t _) ?_
  refine delivers_seq (delivers_pair hc t _ _) ?_
  refine delivers_seq (delivers_pair hc t _ _) ?_
  refine delivers_seq (delivers_artworks hc t) ?_
  refine delivers_seq (delivers_opt hc (fun r => delivers_text hc (AdvisoryRating.display r)) _ _) ?_
  refine delivers_seq (delivers_opt hc (fun r => delivers_text hc (MediaType.display r)) _ _) ?_
  refine delivers_seq (delivers_strings hc _ _ _ _) ?_
  refine delivers_seq (delivers_strings hc _ _ _ _) ?_
  refine delivers_seq (delivers_strings hc _ _ _ _) ?_
  refine delivers_seq (delivers_strings hc _ _ _ _) ?_
  refine delivers_seq (delivers_strings hc _ _ _ _) ?_
  refine delivers_seq (delivers_single hc t _) ?_
  refine delivers_seq (delivers_single hc t _) ?_
  refine delivers_seq (delivers_single hc t _) ?_
  refine delivers_seq (delivers_single hc t _) ?_
  refine delivers_seq (delivers_single hc t _) ?_
  refine delivers_seq (delivers_int hc t _ _) ?_
  refine delivers_seq (delivers_int hc t _ _) ?_
  refine delivers_seq (delivers_int hc t _ _) ?_
  refine delivers_seq (delivers_single hc t _) ?_
  refine delivers_seq (delivers_single hc t _) ?_
  refine delivers_seq (delivers_int hc t _ _) ?_
  refine delivers_seq (delivers_int hc t _ _) ?_
  refine delivers_seq (delivers_opt hc (fun d => delivers_text hc (durationText d)) _ _) ?_
  refine delivers_seq (delivers_opt hc (fun r => delivers_text hc (ChannelConfig.display r)) _ _) ?_
  refine delivers_seq (delivers_opt hc (delivers_sampleRate hc) _ _) ?_
  refine delivers_seq (delivers_opt hc (fun n => delivers_andThen (delivers_text hc (decimal (n / 1024))) (delivers_text hc "kbps".toList)) _ _) ?_
  refine delivers_seq (delivers_opt hc (fun n => delivers_andThen (delivers_text hc (decimal (n / 1024))) (delivers_text hc "kbps".toList)) _ _) ?_
  refine delivers_seq (delivers_flag hc t _) ?_
  refine delivers_seq (delivers_flag hc t _) ?_
  refine delivers_seq (delivers_flag hc t _) ?_
  refine delivers_seq (delivers_single hc t _) ?_
  refine delivers_seq (delivers_single hc t _) ?_
  exact delivers_done

theorem delivers_tag (esc : Char → Str) (t : Tag) : Delivers c.write (t.display esc) (t.fmt c esc) := by
  rw [display_formatLines]
  exact delivers_andThen (delivers_lines hc t) (delivers_andThen (delivers_each fun a _ => delivers_freeform hc esc a)
    (delivers_ln hc (delivers_andThen (delivers_text hc _) (delivers_text hc _))))

end Mp4
