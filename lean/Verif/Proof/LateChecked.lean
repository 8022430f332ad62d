import Verif.Proof.Halves
import Verif.Proof.Late
import Verif.Spec.LateChecked
/-
With overflow checks: which panics are left once the chunk offset tables have been adjusted.
-/
namespace Mp4
open Spec

theorem mkPlan_updates {F : Bytes} {moov : MoovBounds} {atoms e p} (h : mkPlan moov atoms e = .ok p) (hf : FoundMoovB F moov) :
    ∀ a ∈ p.updateAtoms, ∃ fc ∈ [MOVIE, USER_DATA, METADATA], HeadB F fc a := by
  obtain ⟨mb, tr, ud⟩ := moov
  obtain ⟨hm, hu, -⟩ := hf
  match ud, hu with
  | none, _ =>
    simp only [mkPlan, Option.bind_none] at h
    obtain ⟨a1, h1, k1⟩ := E.bind_inv h
    obtain ⟨a2, h2, k2⟩ := E.bind_inv k1
    obtain ⟨a3, h3, k3⟩ := E.bind_inv k2
    obtain ⟨d, h5, k5⟩ := E.bind_inv k3
    obtain rfl := E.pure_inv k5
    intro a ha
    simp only [List.nil_append, List.mem_singleton] at ha
    exact ⟨MOVIE, by simp, ha ▸ hm⟩
  | some ⟨bu, none⟩, hu =>
    simp only [mkPlan, Option.bind_some] at h
    obtain ⟨a1, h1, k1⟩ := E.bind_inv h
    obtain ⟨a2, h2, k2⟩ := E.bind_inv k1
    obtain ⟨a3, h3, k3⟩ := E.bind_inv k2
    obtain ⟨d, h5, k5⟩ := E.bind_inv k3
    obtain rfl := E.pure_inv k5
    intro a ha
    simp only [List.nil_append, List.cons_append, List.mem_cons, List.not_mem_nil, or_false] at ha
    rcases ha with ha | ha
    · exact ⟨USER_DATA, by simp, ha ▸ hu.1⟩
    · exact ⟨MOVIE, by simp, ha ▸ hm⟩
  | some ⟨bu, some ⟨bm, hd, x⟩⟩, hu =>
    simp only [mkPlan, Option.bind_some] at h
    obtain ⟨a1, h1, k1⟩ := E.bind_inv h
    obtain ⟨a2, h2, k2⟩ := E.bind_inv k1
    obtain ⟨a3, h3, k3⟩ := E.bind_inv k2
    obtain ⟨d, h5, k5⟩ := E.bind_inv k3
    obtain rfl := E.pure_inv k5
    intro a ha
    simp only [List.nil_append, List.cons_append, List.mem_cons, List.not_mem_nil, or_false] at ha
    rcases ha with ha | ha | ha
    · exact ⟨METADATA, by simp, ha ▸ hu.2.1⟩
    · exact ⟨USER_DATA, by simp, ha ▸ hu.1⟩
    · exact ⟨MOVIE, by simp, ha ▸ hm⟩

theorem WrTot.atomParts {pn e} {a : AtomData} (h : ShortParts a) : WrTot pn e a.write := by
  have hds := fun d (hm : d ∈ a.data) => WrTot.writeDataAtom (pn := pn) (e := e) (d := d) fun _ _ => by
    have := h.1 d hm; have := dataLen_le d; omega
  unfold AtomData.write
  refine .bind (.emit _) fun _ => ?_
  dsimp only
  split
  · exact .bind (.emit _) fun _ => .wrAll _ hds
  · rename_i mean name hi
    obtain ⟨h1, h2⟩ := h.2 mean name hi
    rw [← utf8Enc_spec] at h1 h2
    exact .bind (.emit _) fun _ => .bind (.writeStrAtom fun _ _ => h1) fun _ =>
      .bind (.writeStrAtom fun _ _ => h2) fun _ => .wrAll _ hds

/-- Without tables to adjust, the writing phase does not panic. -/
theorem writePhase_nopanic {e : Env} {F : Bytes} {moov : MoovBounds} {atoms : List AtomData} {p : Plan} {moved : Bytes}
    (hF : F.length + insertBound atoms < 2^62) (hsmall : SmallOuter F) (hparts : ∀ a ∈ atoms, ShortParts a)
    (hmv : p.movedDataStart ≤ F.length) (hu : ∀ a ∈ p.updateAtoms, ∃ fc ∈ [MOVIE, USER_DATA, METADATA], HeadB F fc a)
    (hi : PlanIlst atoms p) (hok : PlanOk F atoms p) :
    WTot False e (writePhase 0 moov p F.length moved atoms) fun _ => True := by
  obtain ⟨k1, k2, k3, k4, k5⟩ := hok
  have hadd : ∀ n : Nat, n < 2^62 → e.checked = true → ¬ False →
      -2^63 ≤ asI64 n + p.lenDiff ∧ asI64 n + p.lenDiff < 2^63 := fun n hn _ _ => by
    have := asI64_small (n := n) (by omega)
    omega
  unfold writePhase
  rw [if_neg (Nat.not_lt_zero _)]
  refine .bind (.wAll _ fun a ha => patchHead_tot (hadd _ ?_)) fun _ _ => ?_
  · obtain ⟨fc, hfc, hb⟩ := hu a (List.mem_reverse.mp ha)
    exact hsmall _ _ _ fc hfc hb.headIn
  refine .bind (.ofE (.addI (Q := fun _ => True) (hadd _ (by omega)) fun _ => trivial)) fun n _ => ?_
  refine .bind (.wSetLen _) fun _ _ => .bind (.wSeekStart _) fun _ _ => .bind (.wEmit (.newAtoms hi ?_)) fun _ _ => ?_
  · exact .bind (.writeHead _) fun _ => .wrAll _ fun a ha => .atomParts (hparts a ha)
  refine .bind (.ofE (.addI (Q := fun _ => True) (hadd _ (by omega)) fun _ => trivial)) fun m _ => ?_
  exact .bind (.wSeekStart _) fun _ _ => .bind (.wWriteAll _) fun _ _ => .wFlush

end Mp4
