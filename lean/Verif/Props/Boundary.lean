import Verif.Proof.Boundary
import Verif.Props.InPlace
/-
C58 for all files: which media data survives when the process is stopped or a call fails.
-/
namespace Mp4.Props
open Mp4 Spec

/-! ### States of the file while some system calls are issued -/

theorem crash_append {F : Bytes} {A B : List Op} {H : Bytes} (h : Crash F (A ++ B) H) : Crash F A H ∨ Crash (A.foldl Op.apply F) B H := by
  cases h with
  | done => rw [List.foldl_append]; exact .inr .done
  | during A' op B' _ hc hp =>
    rcases List.append_eq_append_iff.mp hc with ⟨C, h1, h2⟩ | ⟨C, h1, h2⟩
    · subst h1
      rw [List.foldl_append] at hp
      exact .inr (.during C op B' _ h2 hp)
    · cases C with
      | nil =>
        rw [List.append_nil] at h1
        subst h1
        exact .inr (.during [] op B' _ h2.symm hp)
      | cons o C =>
        rw [List.cons_append, List.cons.injEq] at h2
        obtain ⟨rfl, -⟩ := h2
        exact .inl (.during A' op C _ h1 hp)

theorem crash_behind {F : Bytes} {A B : List Op} {H : Bytes} (h : Crash (A.foldl Op.apply F) B H) : Crash F (A ++ B) H := by
  cases h with
  | done => rw [← List.foldl_append]; exact .done
  | during A' op B' _ hc hp =>
    refine .during (A ++ A') op B' _ (by rw [hc, List.append_assoc]) ?_
    rw [List.foldl_append]; exact hp

theorem crash_inner {T : Nat → Prop} {F : Bytes} (hF : ∀ i, T i → i < F.length) {ops : List Op} (ho : ∀ op ∈ ops, Inner T op) {H : Bytes}
    (h : Crash F ops H) : H.length = F.length ∧ ∀ i, ¬ T i → H[i]? = F[i]? := by
  cases h with
  | done => exact ops_inner hF _ _ ⟨rfl, fun _ _ => rfl⟩ ho
  | during A op B _ hc hp =>
    have hA := ops_inner hF A F ⟨rfl, fun _ _ => rfl⟩ fun o h => ho o (by rw [hc]; simp [h])
    obtain ⟨off, b, rfl, hb, hT⟩ := ho op (by rw [hc]; simp)
    generalize A.foldl Op.apply F = K at hA hp
    cases hp with
    | write _ _ _ j =>
      by_cases hj : b.take j = []
      · have hlt := hF off (hT 0 (List.length_pos_iff.mpr hb))
        have : Op.apply K (.write off (b.take j)) = K := by
          rw [hj]
          exact writeAt_nil K off (by omega)
        rw [this]
        exact hA
      · exact write_inner hF hA hj fun i hi => hT i (by rw [List.length_take] at hi; omega)

/-- `K` with the bytes from `t` to `r` replaced by those of `T`. -/
def Spliced (K T : Bytes) (t r : Nat) (H : Bytes) : Prop :=
  H.length = K.length ∧ ∀ i, H[i]? = if t ≤ i ∧ i < r then T[i]? else K[i]?

theorem spliced_write {K T H b : Bytes} {t r : Nat} (h : Spliced K T t r H) (hl : K.length = T.length) (htr : t ≤ r) (hb : At T r b) :
    Spliced K T t (r + b.length) (writeAt H r b) := by
  have hle := hb.le
  refine ⟨by rw [writeAt_length, h.1]; omega, fun i => ?_⟩
  obtain ⟨A, B, hT, hA⟩ := hb.elim
  rw [writeAt_get, h.2]
  by_cases h1 : i < r
  · rw [if_pos h1]
    by_cases h2 : i < H.length
    · rw [if_pos h2]
      by_cases h3 : t ≤ i
      · rw [if_pos ⟨h3, h1⟩, if_pos ⟨h3, by omega⟩]
      · rw [if_neg (by omega), if_neg (by omega)]
    · have := h.1
      omega
  · rw [if_neg h1]
    by_cases h2 : i < r + b.length
    · rw [if_pos h2, if_pos ⟨by omega, h2⟩, hT, List.append_assoc, List.getElem?_append_right (by omega), List.getElem?_append_left (by omega), hA]
    · rw [if_neg h2, if_neg (by omega), if_neg (by omega)]

theorem spliced_refl (K T : Bytes) (t : Nat) : Spliced K T t t K := ⟨rfl, fun i => by rw [if_neg (by omega)]⟩

theorem contig_fold {T : Bytes} : ∀ {C : List Op} {t p q : Nat} {K H : Bytes}, K.length = T.length → t ≤ p → Spliced K T t p H → Contig T p C q →
    Spliced K T t q (C.foldl Op.apply H)
  | [], _, p, q, _, _, _, _, hs, h => by
    have h : p = q := h
    subst h
    exact hs
  | .write off b :: C, t, p, q, K, H, hl, htp, hs, h => by
    obtain ⟨rfl, hne, hat, h⟩ := h
    exact contig_fold (C := C) hl (by omega) (spliced_write hs hl htp hat) h
  | .setLen _ :: _, _, _, _, _, _, _, _, _, h => h.elim

theorem contig_crash {T : Bytes} {C : List Op} {t q : Nat} {K H : Bytes} (hl : K.length = T.length) (h : Contig T t C q) (hc : Crash K C H) :
    ∃ r, t ≤ r ∧ Spliced K T t r H := by
  cases hc with
  | done => exact ⟨q, h.le.1, contig_fold hl (Nat.le_refl _) (spliced_refl K T t) h⟩
  | during A op B _ hc hp =>
    rw [hc] at h
    obtain ⟨r, h1, h2⟩ := h.split
    have hA := contig_fold hl (Nat.le_refl _) (spliced_refl K T t) h1
    generalize A.foldl Op.apply K = K' at hA hp
    cases hp with
    | write _ off b j =>
      obtain ⟨rfl, -, hat, -⟩ := h2
      refine ⟨off + (b.take j).length, by have := h1.le.1; omega, spliced_write hA hl h1.le.1 ?_⟩
      rw [← List.take_append_drop j b] at hat
      exact hat.left
    | before => exact h2.elim
    | after => exact h2.elim

theorem contig_reaches {T : Bytes} : ∀ {C : List Op} {t p q r : Nat} {K H : Bytes}, K.length = T.length → t ≤ p → Spliced K T t p H → Contig T p C q →
    p ≤ r → r ≤ q → ∃ H', Crash H C H' ∧ Spliced K T t r H'
  | [], _, p, q, r, _, H, _, _, hs, h, h1, h2 => by
    have h : p = q := h
    obtain rfl : p = r := by omega
    exact ⟨H, .done, hs⟩
  | .write off b :: C, t, p, q, r, K, H, hl, htp, hs, h, h1, h2 => by
    obtain ⟨rfl, hne, hat, h⟩ := h
    by_cases hr : r ≤ off + b.length
    · refine ⟨_, .during [] (.write off b) C _ rfl (.write _ off b (r - off)), ?_⟩
      have hat' := hat
      rw [← List.take_append_drop (r - off) b] at hat'
      have := spliced_write hs hl htp hat'.left
      rwa [List.length_take, Nat.min_eq_left (by omega), show off + (r - off) = r by omega] at this
    · obtain ⟨H', k1, k2⟩ := contig_reaches (t := t) (r := r) hl (by omega) (spliced_write hs hl htp hat) h (by omega) h2
      exact ⟨H', crash_behind (A := [.write off b]) k1, k2⟩
  | .setLen _ :: _, _, _, _, _, _, _, _, _, _, h, _, _ => h.elim

/-- The file, at all positions with `U`, is the old one; or the old one with the new length; or that with the bytes from `t` to `r`
replaced by those of the new file. -/
theorem stage_crash {F G : Bytes} {T1 T2 : Nat → Prop} {t : Nat} {s : FSt} {H : Bytes} (h1 : ∀ i, T1 i → i < F.length) (h2 : ∀ i, T2 i → i < G.length)
    (h : Stage F G T1 T2 G.length t s) (hc : Crash F s.trace H) :
    (H.length = F.length ∧ ∀ i, ¬ T1 i → H[i]? = F[i]?) ∨
    ∃ r, t ≤ r ∧ H.length = G.length ∧ (∀ i, t ≤ i → i < r → H[i]? = G[i]?) ∧
      ∀ i, ¬ (t ≤ i ∧ i < r) → ¬ T1 i → ¬ T2 i → H[i]? = (fileSetLen F G.length)[i]? := by
  -- up to the new length
  have first : ∀ {A : List Op} {H}, (∀ op ∈ A, Inner T1 op) → Crash F (A ++ [Op.setLen G.length]) H →
      (H.length = F.length ∧ ∀ i, ¬ T1 i → H[i]? = F[i]?) ∨ H.length = G.length ∧ ∀ i, ¬ T1 i → H[i]? = (fileSetLen F G.length)[i]? := by
    intro A H hA hc
    have hK : ∀ {K : Bytes}, K.length = F.length ∧ (∀ i, ¬ T1 i → K[i]? = F[i]?) →
        (fileSetLen K G.length).length = G.length ∧ ∀ i, ¬ T1 i → (fileSetLen K G.length)[i]? = (fileSetLen F G.length)[i]? := by
      intro K hK
      refine ⟨fileSetLen_length _ _, fun i hi => ?_⟩
      rw [fileSetLen_get, fileSetLen_get, hK.1, hK.2 i hi]
    rcases crash_append hc with hc | hc
    · exact .inl (crash_inner h1 hA hc)
    · have hA' := crash_inner h1 hA .done
      generalize A.foldl Op.apply F = K at hc hA'
      cases hc with
      | done => exact .inr (hK hA')
      | during A' op B' _ hc hp =>
        cases A' with
        | cons o A' => simp at hc
        | nil =>
          rw [List.nil_append, List.cons.injEq] at hc
          obtain ⟨rfl, -⟩ := hc
          cases hp with
          | before => exact .inl hA'
          | after => exact .inr (hK hA')
  have firstDone : ∀ {A : List Op}, (∀ op ∈ A, Inner T1 op) → ((A ++ [Op.setLen G.length]).foldl Op.apply F).length = G.length ∧
      ∀ i, ¬ T1 i → ((A ++ [Op.setLen G.length]).foldl Op.apply F)[i]? = (fileSetLen F G.length)[i]? := by
    intro A hA
    have hA' := crash_inner h1 hA .done
    rw [List.foldl_append]
    generalize A.foldl Op.apply F = K at hA'
    show (fileSetLen K G.length).length = G.length ∧ ∀ i, ¬ T1 i → (fileSetLen K G.length)[i]? = _
    refine ⟨fileSetLen_length _ _, fun i hi => ?_⟩
    rw [fileSetLen_get, fileSetLen_get, hA'.1, hA'.2 i hi]
  -- up to the new atoms
  have second : ∀ {A B : List Op} {H}, (∀ op ∈ A, Inner T1 op) → (∀ op ∈ B, Inner T2 op) → Crash F (A ++ [Op.setLen G.length] ++ B) H →
      (H.length = F.length ∧ ∀ i, ¬ T1 i → H[i]? = F[i]?) ∨ H.length = G.length ∧ ∀ i, ¬ T1 i → ¬ T2 i → H[i]? = (fileSetLen F G.length)[i]? := by
    intro A B H hA hB hc
    rcases crash_append hc with hc | hc
    · rcases first hA hc with h | ⟨k1, k2⟩
      · exact .inl h
      · exact .inr ⟨k1, fun i hi _ => k2 i hi⟩
    · obtain ⟨k1, k2⟩ := firstDone hA
      generalize (A ++ [Op.setLen G.length]).foldl Op.apply F = K at hc k1 k2
      obtain ⟨k3, k4⟩ := crash_inner (fun i hi => by rw [k1]; exact h2 i hi) hB hc
      exact .inr ⟨k3.trans k1, fun i hi1 hi2 => (k4 i hi2).trans (k2 i hi1)⟩
  have conv : (H.length = F.length ∧ ∀ i, ¬ T1 i → H[i]? = F[i]?) ∨ (H.length = G.length ∧ ∀ i, ¬ T1 i → ¬ T2 i → H[i]? = (fileSetLen F G.length)[i]?) →
      (H.length = F.length ∧ ∀ i, ¬ T1 i → H[i]? = F[i]?) ∨
      ∃ r, t ≤ r ∧ H.length = G.length ∧ (∀ i, t ≤ i → i < r → H[i]? = G[i]?) ∧
        ∀ i, ¬ (t ≤ i ∧ i < r) → ¬ T1 i → ¬ T2 i → H[i]? = (fileSetLen F G.length)[i]? := by
    rintro (h | ⟨k1, k2⟩)
    · exact .inl h
    · exact .inr ⟨t, Nat.le_refl _, k1, fun i hi1 hi2 => absurd hi1 (by omega), fun i _ => k2 i⟩
  rcases h with h | ⟨A, hA, h⟩ | ⟨A, B, hA, hB, h⟩
  · obtain ⟨B, hB, hB'⟩ := h.ops
    rw [hB] at hc
    exact .inl (crash_inner h1 hB' hc)
  · obtain ⟨B, hB, hB'⟩ := h.ops
    rw [hB] at hc
    exact conv (second hA hB' hc)
  · obtain ⟨C, hC, hC'⟩ := h.ops
    rw [hC, show A ++ Op.setLen G.length :: B = A ++ [Op.setLen G.length] ++ B by simp] at hc
    rcases crash_append hc with hc | hc
    · exact conv (second hA hB hc)
    · obtain ⟨d1, d2⟩ := firstDone hA
      rw [List.foldl_append] at hc
      generalize (A ++ [Op.setLen G.length]).foldl Op.apply F = K at hc d1 d2
      obtain ⟨k3, k4⟩ := crash_inner (fun i hi => by rw [d1]; exact h2 i hi) hB .done
      generalize B.foldl Op.apply K = K' at hc k3 k4
      obtain ⟨r, r1, r2, r3⟩ := contig_crash (k3.trans d1) hC' hc
      refine .inr ⟨r, r1, r2.trans (k3.trans d1), fun i hi1 hi2 => by rw [r3, if_pos ⟨hi1, hi2⟩], fun i hi hi1 hi2 => ?_⟩
      rw [r3, if_neg hi, k4 i hi2, d2 i hi1]

/-! ### C58 -/

/-- **C58**, what holds for all files: whichever calls fail, after however many bytes, and wherever the process is stopped, also
within a call, there is a boundary `c`. Media data in front of `moov` is where it was. Of the media data behind `moov`, what was in
front of the boundary is at its new place, and what was behind it is at its old place, except for as many bytes as the file grows or
shrinks by: those behind the boundary if the file grows, those at its end if it shrinks. Missing: those bytes, which may be lost
(`C58_lost`). -/
theorem C58_boundary_partial (fl : Faults) (e : Env) (X : Bytes) (f : File) (atoms : List AtomData) (h : Writable e X f atoms) (H : Bytes)
    (hH : Crash (X ++ f.ser) (writeTagF fl e (X ++ f.ser) X.length atoms).2.trace H) :
    ∃ c : Nat, ∀ o, f.InMdat X.length o 1 →
      (o < f.moovPos X.length → H[o]? = (X ++ f.ser)[o]?) ∧
      (f.moovPos X.length ≤ o → o < c → H[(o + f.growth atoms).toNat]? = (X ++ f.ser)[o]?) ∧
      (f.moovPos X.length ≤ o → c ≤ o → c + f.growth atoms ≤ o → o < (X ++ f.ser).length + f.growth atoms → H[o]? = (X ++ f.ser)[o]?) := by
  obtain ⟨m, t, hm1, hm2, ht1, ht2, hd, hs, -⟩ := writeTagF_stage fl h.fit h.wf h.store h.old h.new h.tables
  have hg := put_length_growth (X := X) (atoms := atoms) h.tables
  have hE : f.moovEnd X.length ≤ (X ++ f.ser).length := by
    rw [front_eq f]
    have := front_length f X
    simp only [List.length_append] at this ⊢
    unfold Spec.File.moovEnd
    omega
  have hG : ∀ o, m ≤ o → (X ++ (f.put atoms).ser)[(o + f.growth atoms).toNat]? = (X ++ f.ser)[o]? := by
    intro o ho
    have := congrArg (fun l => l[o - m]?) hd
    simp only [List.getElem?_drop] at this
    rw [show t + (o - m) = (o + f.growth atoms).toNat by omega, show m + (o - m) = o by omega] at this
    exact this
  have hlast : ∀ o, f.InMdat X.length o 1 → f.moovPos X.length ≤ o → f.moovEnd X.length ≤ o := by
    intro o ho h1
    rcases inMdat_bounds ho with ⟨_, hle⟩ | ⟨_, hle⟩ <;> omega
  rcases stage_crash (fun i hi => Nat.lt_of_lt_of_le hi.2 hE) (fun i hi => by omega) hs hH with ⟨-, k⟩ | ⟨r, r1, -, r2, r3⟩
  · exact ⟨0, fun o ho => ⟨fun h1 => k o (by omega), fun _ h1 => absurd h1 (Nat.not_lt_zero o), fun h1 _ _ _ => k o (by have := hlast o ho h1; omega)⟩⟩
  · refine ⟨m + (r - t), fun o ho => ⟨fun h1 => ?_, fun h1 h2 => ?_, fun h1 h2 h3 h4 => ?_⟩⟩
    · rw [r3 o (by omega) (by omega) (by omega), fileSetLen_get, if_pos (by omega), if_pos (by omega)]
    · have := hlast o ho h1
      rw [r2 _ (by omega) (by omega), hG o (by omega)]
    · have := hlast o ho h1
      by_cases hL : o < (X ++ f.ser).length
      · rw [r3 o (by omega) (by omega) (by omega), fileSetLen_get, if_pos (by omega), if_pos hL]
      · exfalso
        rcases ho with ⟨A, b, B, hp, _, k1, k2⟩ | ⟨A, b, B, hp, _, k1, k2⟩
        · have hl : (X ++ f.ser).length = X.length + f.ftypBox.ser.length + (serL id f.pre).length + f.moovBox.ser.length + (serL id f.post).length := by
            simp only [File.ser, List.length_append]; omega
          have : (serL id f.pre).length = (serL id A).length + (b.ser.length + (serL id B).length) := by
            rw [hp, serL_append, serL_cons, List.length_append, List.length_append]; rfl
          omega
        · have hl : (X ++ f.ser).length = X.length + f.ftypBox.ser.length + (serL id f.pre).length + f.moovBox.ser.length + (serL id f.post).length := by
            simp only [File.ser, List.length_append]; omega
          have : (serL id f.post).length = (serL id A).length + (b.ser.length + (serL id B).length) := by
            rw [hp, serL_append, serL_cons, List.length_append, List.length_append]; rfl
          omega

/-- **C58**, how much may be lost: there are at most as many bytes as the file grows or shrinks by, next to each other, so that all
other media data is at its old or at its new place. -/
theorem C58_window_partial (fl : Faults) (e : Env) (X : Bytes) (f : File) (atoms : List AtomData) (h : Writable e X f atoms) (H : Bytes)
    (hH : Crash (X ++ f.ser) (writeTagF fl e (X ++ f.ser) X.length atoms).2.trace H) :
    ∃ a : Int, ∀ o, f.InMdat X.length o 1 → ¬ (a ≤ o ∧ o < a + (f.growth atoms).natAbs) →
      H[o]? = (X ++ f.ser)[o]? ∨ H[(o + f.growth atoms).toNat]? = (X ++ f.ser)[o]? := by
  obtain ⟨c, hc⟩ := C58_boundary_partial fl e X f atoms h H hH
  have hlen : ∀ o, f.InMdat X.length o 1 → o < (X ++ f.ser).length := by
    intro o ho
    have hl : (X ++ f.ser).length = X.length + f.ftypBox.ser.length + (serL id f.pre).length + f.moovBox.ser.length + (serL id f.post).length := by
      simp only [File.ser, List.length_append]; omega
    rcases ho with ⟨A, b, B, hp, _, k1, k2⟩ | ⟨A, b, B, hp, _, k1, k2⟩
    · have : (serL id f.pre).length = (serL id A).length + (b.ser.length + (serL id B).length) := by
        rw [hp, serL_append, serL_cons, List.length_append, List.length_append]; rfl
      omega
    · have : (serL id f.post).length = (serL id A).length + (b.ser.length + (serL id B).length) := by
        rw [hp, serL_append, serL_cons, List.length_append, List.length_append]; rfl
      omega
  refine ⟨if 0 ≤ f.growth atoms then c else (X ++ f.ser).length + f.growth atoms, fun o ho hw => ?_⟩
  obtain ⟨h1, h2, h3⟩ := hc o ho
  have := hlen o ho
  by_cases hp : o < f.moovPos X.length
  · exact .inl (h1 hp)
  · by_cases hcl : o < c
    · exact .inr (h2 (by omega) hcl)
    · refine .inl (h3 (by omega) (by omega) ?_ ?_)
      · split at hw <;> omega
      · split at hw <;> omega

/-- **C58**, for which the boundary cannot be improved: wherever behind `moov` the boundary `c` is, there is a moment at which the file
has its new length, is the new one up to the new place of `c`, and is still the old one, as far as it is not too long, behind it. So if
the file shrinks its last bytes are lost until they have been moved, and if it grows those behind the boundary are. -/
theorem C58_lost (e : Env) (X : Bytes) (f : File) (atoms : List AtomData) (h : Writable e X f atoms) :
    ∃ s, writeTagTo e (X ++ f.ser) X.length atoms = (.ok (), s) ∧ ∀ c, f.moovEnd X.length ≤ c → c ≤ (X ++ f.ser).length →
      ∃ H, Crash (X ++ f.ser) s.trace H ∧ (H.length : Int) = (X ++ f.ser).length + f.growth atoms ∧
        (∀ i : Nat, i < c + f.growth atoms → H[i]? = (X ++ (f.put atoms).ser)[i]?) ∧
        (∀ i : Nat, c + f.growth atoms ≤ i → f.moovEnd X.length ≤ i → i < (X ++ f.ser).length + f.growth atoms →
          H[i]? = if i < (X ++ f.ser).length then (X ++ f.ser)[i]? else some 0) := by
  obtain ⟨s, h1, h2, -⟩ := h.run
  refine ⟨s, h1, ?_⟩
  have hsim : (writeTagF Faults.none e (X ++ f.ser) X.length atoms).1 = .ok () ∧ (writeTagF Faults.none e (X ++ f.ser) X.length atoms).2.toWSt = s := by
    rcases writeTagF_sim Faults.none e (X ++ f.ser) X.length atoms with ⟨-, -, k1, k2⟩ | ⟨k, -⟩ | ⟨k, -⟩ | ⟨k, -⟩
    · rw [h1] at k1 k2
      exact ⟨k1, k2⟩
    · cases k
    · exact absurd (fun _ _ => rfl) k
    · exact absurd (fun _ _ => rfl) k
  obtain ⟨m, t, hm1, hm2, ht1, ht2, hd, -, hcp⟩ := writeTagF_stage Faults.none h.fit h.wf h.store h.old h.new h.tables
  have hg := put_length_growth (X := X) (atoms := atoms) h.tables
  obtain ⟨A, B, hA, hB, ⟨hrep, ⟨C, hC, hC'⟩, -⟩, -, hcur⟩ := hcp hsim.1
  rw [hcur] at hC'
  rw [hsim.2] at hC hrep
  rw [h2] at hrep
  have hE : f.moovEnd X.length ≤ (X ++ f.ser).length := by
    rw [front_eq f]
    have := front_length f X
    simp only [List.length_append] at this ⊢
    unfold Spec.File.moovEnd
    omega
  generalize hFe : X ++ f.ser = F at *
  generalize hGe : X ++ (f.put atoms).ser = G at *
  -- the file before it is moved
  have hA' := crash_inner (fun i hi => Nat.lt_of_lt_of_le hi.2 hE) hA .done
  have hK : ((A ++ Op.setLen G.length :: B).foldl Op.apply F).length = G.length ∧
      ∀ i, f.moovEnd X.length ≤ i → t ≤ i → ((A ++ Op.setLen G.length :: B).foldl Op.apply F)[i]? = (fileSetLen F G.length)[i]? := by
    rw [List.foldl_append, List.foldl_cons]
    generalize A.foldl Op.apply F = K at hA'
    have hl : (fileSetLen K G.length).length = G.length := fileSetLen_length _ _
    have := crash_inner (F := fileSetLen K G.length) (fun i hi => by rw [hl]; omega) hB .done
    refine ⟨this.1.trans hl, fun i hi1 hi2 => ?_⟩
    have h3 := this.2 i (by omega)
    rw [fileSetLen_get, hA'.1, hA'.2 i (by omega), ← fileSetLen_get] at h3
    exact h3
  rw [hC] at hrep ⊢
  rw [List.foldl_append] at hrep
  intro c hc1 hc2
  generalize hKe : (A ++ Op.setLen G.length :: B).foldl Op.apply F = K at hK hrep
  obtain ⟨H, k1, k2, k3⟩ := contig_reaches (r := (c + f.growth atoms).toNat) hK.1 (Nat.le_refl t) (spliced_refl K G t) hC' (by omega) (by omega)
  have hfin := contig_fold hK.1 (Nat.le_refl t) (spliced_refl K G t) hC'
  rw [hrep] at hfin
  refine ⟨H, crash_behind (by rw [hKe]; exact k1), by rw [k2, hK.1]; exact hg, fun i hi => ?_, fun i hi1 hi2 hi3 => ?_⟩
  · rw [k3]
    by_cases hti : t ≤ i
    · rw [if_pos ⟨hti, by omega⟩]
    · rw [if_neg (by omega), hfin.2, if_neg (by omega)]
  · rw [k3, if_neg (by omega), hK.2 i hi2 (by omega), fileSetLen_get, if_pos (by omega)]

/-- In the example the file shrinks by 46 bytes, so that the three bytes of media data, which are among its last 46, are lost in between. -/
example : fileW.growth atomsW = -46 ∧ fileW.moovEnd 0 = 498 ∧ fileW.ser.length = 509 := by decide +kernel

/-- A file that grows, with more media data behind `moov`. -/
def fileLong : File := { fileW with post := [⟨false, cc 'm' 'd' 'a' 't', (List.range 150).map UInt8.ofNat⟩] }

theorem fileLong_writable : Writable env0 [] fileLong (atomsW ++ atomsW) where
  wf := by decide +kernel
  fit := ⟨by decide +kernel, by decide +kernel, by decide +kernel⟩
  store := fun a ha => (atomsW_store a (by simpa using ha)).1
  old := by decide +kernel
  new := by decide +kernel
  pos := by decide +kernel
  tables := fun _ => fileW_tables

/-- The bytes from `a` to `b` that are neither at their old nor at their new place. -/
def lost (F H : Bytes) (g : Int) (a b : Nat) : List Nat := (List.range (b - a)).filterMap fun i =>
  if H[a + i]? = F[a + i]? ∨ H[((a + i : Nat) + g).toNat]? = F[a + i]? then none else some (a + i)

/-- The window of `C58_window_partial` is not too large: if the process is stopped when 40 bytes have been moved, the 52 bytes behind them
are lost. -/
example : Writable env0 [] fileLong (atomsW ++ atomsW) ∧ fileLong.growth (atomsW ++ atomsW) = 52 ∧
    ∃ H, Crash fileLong.ser (writeTagTo env0 fileLong.ser 0 (atomsW ++ atomsW)).2.trace H ∧
      lost fileLong.ser H 52 506 656 = (List.range 52).map (538 + ·) := by
  have key : fileLong.growth (atomsW ++ atomsW) = 52 ∧ (writeTagTo env0 fileLong.ser 0 (atomsW ++ atomsW)).2.trace
        = (writeTagTo env0 fileLong.ser 0 (atomsW ++ atomsW)).2.trace.take 8 ++ [.write 550 (fileLong.ser.drop 498)] ∧
      lost fileLong.ser (Op.apply (((writeTagTo env0 fileLong.ser 0 (atomsW ++ atomsW)).2.trace.take 8).foldl Op.apply fileLong.ser)
        (.write 550 ((fileLong.ser.drop 498).take 40))) 52 506 656 = (List.range 52).map (538 + ·) := by decide +kernel
  generalize (writeTagTo env0 fileLong.ser 0 (atomsW ++ atomsW)).2.trace = tr at key
  exact ⟨fileLong_writable, key.1, _, .during _ _ [] _ key.2.1 (.write _ _ _ 40), key.2.2⟩

end Mp4.Props
