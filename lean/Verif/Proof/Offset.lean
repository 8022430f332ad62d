import Verif.Proof.Written
import Verif.Spec.Offset
/-
Chunk offsets after writing, exactly.
-/
namespace Mp4
open Spec

theorem stbl_chunks64 {d : Int} {s : Stbl} (h : s.Tables) : (s.shift d).chunks64 = s.chunks64.map (shiftBy d) := by
  unfold Stbl.chunks64
  rw [stbl_shift_co64]
  cases hl : (s.filterMap (Box.sel (cc 'c' 'o' '6' '4'))).getLast? with
  | none => rfl
  | some body =>
    show offsets 8 (mapOffsets 8 (shiftBy d) body) = (offsets 8 body).map (shiftBy d)
    rw [offsets_mapOffsets (.inr rfl) (h.2 _ hl)]
    refine List.map_congr_left fun o _ => Nat.mod_eq_of_lt ?_
    exact Nat.lt_of_lt_of_le (shiftBy_lt d o) (by decide)

theorem trak_chunks64 {d : Int} {t : Spec.Trak} (h : t.Tables) : (t.shift d).chunks64 = t.chunks64.map (shiftBy d) := by
  refine node_chunks fun a ha => node_chunks fun a' ha' => node_chunks fun a'' ha'' => ?_
  exact stbl_chunks64 (h a ha a' ha' a'' ha'')

theorem last_chunks {α} {ks : List (Kid α)} {c c1 c2 : α → List Nat} (h : ∀ a, c a = c1 a ++ c2 a) :
    (((ks.filterMap Kid.sel).getLast?).map c).getD [] =
      (((ks.filterMap Kid.sel).getLast?).map c1).getD [] ++ (((ks.filterMap Kid.sel).getLast?).map c2).getD [] := by
  cases (ks.filterMap Kid.sel).getLast? with
  | none => rfl
  | some a => exact h a

theorem trak_chunks_split (t : Spec.Trak) : t.chunks = t.chunks32 ++ t.chunks64 :=
  last_chunks fun _ => last_chunks fun _ => last_chunks fun _ => rfl

/-- The tracks in front of the last user data atom are changed, the others are not. -/
theorem put_split_traks {m : Spec.Moov} {g : Spec.Trak → Spec.Trak} {atoms : List AtomData} {E L : List Spec.Trak} (h : m.Split E L) :
    m.traks = E ++ L ∧ (m.put g atoms).traks = E.map g ++ L := by
  rcases h with ⟨h0, rfl, rfl⟩ | ⟨A, ext, u, B, rfl, h0, rfl, rfl⟩
  · refine ⟨(List.append_nil _).symm, ?_⟩
    have hn : ∀ k ∈ m, ¬ isUdta k := by
      intro k hk hu
      have := List.filterMap_eq_nil_iff.mp h0 k hk
      cases k with
      | udta ext u => simp [MoovKid.udta?] at this
      | _ => exact hu
    rw [put_none hn]
    unfold Spec.Moov.traks
    rw [List.filterMap_append, trak_mapTrak]
    simp [udtaKid, MoovKid.trak?]
  · have hn : ∀ k ∈ B, ¬ isUdta k := by
      intro k hk hu
      have := List.filterMap_eq_nil_iff.mp h0 k hk
      cases k with
      | udta ext u => simp [MoovKid.udta?] at this
      | _ => exact hu
    rw [put_split hn]
    unfold Spec.Moov.traks
    constructor
    · rw [List.filterMap_append]; rfl
    · rw [List.filterMap_append, trak_mapTrak]; rfl

theorem split_exists (m : Spec.Moov) : ∃ E L, m.Split E L := by
  rcases last_split isUdta m with h | ⟨A, k, B, rfl, hk, hB⟩
  · exact ⟨_, _, .inl ⟨udta_none_of h, rfl, rfl⟩⟩
  · cases k with
    | udta ext u => exact ⟨_, _, .inr ⟨A, ext, u, B, rfl, udta_none_of hB, rfl, rfl⟩⟩
    | _ => exact absurd hk id

theorem bytesAt_moved {f : File} {atoms : List AtomData} {X : Bytes} {o n : Nat} (ht : f.MediaBehind → f.moov.Tables)
    (h : f.InMdat X.length o n) (hn : 0 < n) :
    bytesAt (X ++ (f.put atoms).ser) (movedTo (f.moovPos X.length) (f.growth atoms) o) n = bytesAt (X ++ f.ser) o n := by
  rcases inMdat_bounds h with ⟨_, hle⟩ | ⟨_, hge⟩
  · rw [movedTo, if_pos (by omega)]
    exact bytesAt_front rfl rfl hle
  · have he := put_moovEnd (atoms := atoms) ht X.length
    have hp : f.moovPos X.length ≤ f.moovEnd X.length := Nat.le_add_right _ _
    have hs : movedTo (f.moovPos X.length) (f.growth atoms) o = (f.put atoms).moovEnd X.length + (o - f.moovEnd X.length) := by
      rw [movedTo, if_neg (by omega)]
      omega
    unfold bytesAt
    rw [hs, drop_behind]
    conv => rhs; rw [show o = f.moovEnd X.length + (o - f.moovEnd X.length) by omega, drop_behind]
    rfl

end Mp4
