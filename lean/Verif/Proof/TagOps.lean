import Verif.Spec.TagOps
import Verif.Proof.TagMap
import Verif.Proof.Monad
/-
Every call of the tag API refines its meaning on the ordered map.
-/
namespace Mp4
open Spec

theorem noDup_iff (t : Tag) : t.NoDup ↔ t.abs.keys.Nodup := by rw [Tag.abs_eq]; rfl

theorem abs_clear (t : Tag) : t.clear.abs = OMap.empty := by
  simp [Tag.abs_eq, Tag.clear, OMap.empty]; rfl

theorem firstBytes_any (f : Bytes → Bytes) (m : OMap) (i : DataIdent) (d : Data) (h : m.hasBytes i) :
    ∃ k, (m.vals i).findIdx? Data.isBytes = some k ∧
      m.firstBytes i f d = ⟨m.keys, OMap.upd m.vals i ((m.vals i).modify k (Data.modBytes f))⟩ := by
  simp only [OMap.hasBytes] at h
  cases hk : (m.vals i).findIdx? Data.isBytes with
  | none =>
    rw [List.findIdx?_eq_none_iff] at hk
    simp only [List.any_eq_true] at h
    obtain ⟨x, hx, hb⟩ := h
    simp [hk x hx] at hb
  | some k => exact ⟨k, rfl, by simp [OMap.firstBytes, hk]⟩

theorem bytesOf_head_none (t : Tag) (i : Ident) :
    (t.bytesOf i).head? = none ↔ t.abs.hasBytes i.toData = false := by
  have : t.abs.vals i.toData = t.dataOf i := by rw [Tag.abs_eq, Tag.dataOf_eq]
  simp only [OMap.hasBytes, this, Tag.bytesOf]
  generalize t.dataOf i = l
  induction l with
  | nil => simp
  | cons d l ih =>
    simp only [List.filterMap_cons, List.any_cons, isBytes_iff]
    cases h : d.bytes? <;> simp_all

theorem nonZero_ne (o : Option Nat) : nonZero o ≠ some 0 := by
  cases o with
  | none => simp [nonZero]
  | some n => simp only [nonZero]; split <;> simp_all

theorem abs_removeField (t : Tag) (i : Ident) (c : Bytes → Option Nat) (hc : ∀ v, c v ≠ some 0)
    (f : Bytes → Bytes) :
    (match (t.bytesOf i).head? with
      | some v => if c v ≠ some 0 then (t.withFirstBytes i f).getD t else t.removePair i
      | none => t.removePair i : Tag).abs
    = if t.abs.hasBytes i.toData then t.abs.firstBytes i.toData f (.reserved [])
      else t.abs.del i.toData := by
  cases hb : (t.bytesOf i).head? with
  | none =>
    rw [bytesOf_head_none] at hb
    simp [hb, Tag.removePair, abs_removeDataOf]
  | some v =>
    have h1 : t.abs.hasBytes i.toData = true := by
      cases h : t.abs.hasBytes i.toData
      · rw [← bytesOf_head_none, hb] at h; simp at h
      · rfl
    have h2 : (t.withFirstBytes i f).isSome := by rw [withFirstBytes_isSome, hb]; rfl
    obtain ⟨t', ht'⟩ := Option.isSome_iff_exists.mp h2
    have := abs_firstBytes t i f (.reserved [])
    rw [ht'] at this
    simpa [h1, hc v, ht'] using this

theorem head_bind_stdGenre (t : Tag) :
    t.standardGenre = t.abs.firstGenreCode := by
  have : t.abs.vals (.fourcc STANDARD_GENRE) = t.dataOf (.fourcc STANDARD_GENRE) := by
    rw [Tag.abs_eq, Tag.dataOf_eq]; rfl
  simp only [Tag.standardGenre, Tag.standardGenres, OMap.firstGenreCode, this, Tag.bytesOf,
    List.filterMap_filterMap]
  congr 2
  funext d
  rcases d with v | v | v | v | v | v | v <;> simp [Data.bytes?, stdGenreCode]
  all_goals
    rcases v with _ | ⟨a, _ | ⟨b, v⟩⟩ <;> simp [beNat]

theorem stdGenreName_isSome (c : Nat) : (stdGenreName c).isSome = decide (1 ≤ c ∧ c ≤ 80) := by
  have hl : STANDARD_GENRES.length = 80 := by decide
  simp only [stdGenreName, hl]
  by_cases h : 1 ≤ c ∧ c ≤ 80
  · have : c - 1 < STANDARD_GENRES.length := by omega
    have h' : c > 0 ∧ c ≤ 80 := by omega
    simp [h, h', List.getElem?_eq_getElem this]
  · have h' : ¬ (c > 0 ∧ c ≤ 80) := by omega
    simp [h, h']

/-- One call. -/
theorem abs_run (o : TagOp) (t : Tag) (h : t.NoDup) : (o.run t).abs = t.abs.apply o := by
  cases o with
  | set i d => exact abs_setData t i d
  | setAll i ds => exact abs_setAllData t i ds
  | add i d => exact abs_addData t i d
  | addAll i ds => exact abs_addAllData t i ds
  | remove i => exact abs_removeDataOf t i
  | removeBytes i =>
    refine (abs_retainDataOf t i _ h).trans ?_
    simp only [OMap.apply]; congr 1; funext d; cases d <;> rfl
  | removeStrings i =>
    refine (abs_retainDataOf t i _ h).trans ?_
    simp only [OMap.apply]; congr 1; funext d; cases d <;> rfl
  | removeImages i =>
    refine (abs_retainDataOf t i _ h).trans ?_
    simp only [OMap.apply]; congr 1; funext d; cases d <;> rfl
  | retainOf i p => exact abs_retainDataOf t i p h
  | retainBytesOf i p => exact abs_retainDataOf t i _ h
  | retainStringsOf i p => exact abs_retainDataOf t i _ h
  | retainImagesOf i p => exact abs_retainDataOf t i _ h
  | retain p => exact abs_retainData t p h
  | retainBytes p => exact abs_retainData t _ h
  | retainStrings p => exact abs_retainData t _ h
  | retainImages p => exact abs_retainData t _ h
  | clear => exact abs_clear t
  | take i => simp only [TagOp.run, takeDataOf_snd t i h, abs_removeDataOf]; rfl
  | dataMutOf i f => exact abs_dataMutOf t i f
  | bytesMutOf i f => exact abs_dataMutOf t i _
  | stringsMutOf i f => exact abs_dataMutOf t i _
  | imagesMutOf i f => exact abs_dataMutOf t i _
  | dataMut f => exact abs_dataMut t f
  | bytesMut f => exact abs_dataMut t _
  | stringsMut f => exact abs_dataMut t _
  | imagesMut f => exact abs_dataMut t _
  | setString i s => exact abs_setData t i _
  | setStrings i l => exact abs_setAllData t i _
  | addString i s => exact abs_addData t i _
  | addStrings i l => exact abs_addAllData t i _
  | setFlag i => exact abs_setData t i _
  | setInt i size n => exact abs_setData t i _
  | setArtwork i => exact abs_setData t _ _
  | setArtworks l => exact abs_setAllData t _ _
  | addArtwork i => exact abs_addData t _ _
  | addArtworks l => exact abs_addAllData t _ _
  | setMediaType m => exact abs_setData t _ _
  | setAdvisoryRating r => exact abs_setData t _ _
  | setPair i n m =>
    refine Eq.trans ?_ (abs_firstBytes t i _ _)
    simp only [TagOp.run, Tag.setPair, Tag.setNewPair]
    split <;> simp_all
  | setNumber i n =>
    refine Eq.trans ?_ (abs_firstBytes t i _ _)
    simp only [TagOp.run, Tag.setNumber, Tag.setNewPair]
    split <;> simp_all
  | setTotal i n =>
    refine Eq.trans ?_ (abs_firstBytes t i _ _)
    simp only [TagOp.run, Tag.setTotal, Tag.setNewPair]
    split <;> simp_all
  | removeNumber i => exact abs_removeField t i tupTotal (fun v => nonZero_ne _) _
  | removeTotal i => exact abs_removeField t i tupNumber (fun v => nonZero_ne _) _
  | setStandardGenre c => exact abs_setData t _ _
  | setStandardGenres cs => exact abs_setAllData t _ _
  | addStandardGenre c => exact abs_addData t _ _
  | addStandardGenres cs => exact abs_addAllData t _ _
  | setGenre s =>
    simp only [TagOp.run, Tag.setGenre, Tag.removeStandardGenres, Tag.setString, abs_removeDataOf, abs_setData]
    rfl
  | setGenres l =>
    simp only [TagOp.run, Tag.setGenres, Tag.removeStandardGenres, Tag.setStrings, abs_removeDataOf,
      abs_setAllData]
    rfl
  | removeGenres =>
    simp only [TagOp.run, Tag.removeGenres, Tag.removeStandardGenres, Tag.removeValue, abs_removeDataOf]
    rfl
  | takeGenres =>
    simp only [TagOp.run, Tag.takeGenres, Tag.takeStringValues, Tag.takeStringsOf, takeDataOf_snd t _ h,
      abs_removeDataOf]
    rfl
  | takeGenre =>
    simp only [TagOp.run, Tag.takeGenre, head_bind_stdGenre, OMap.apply]
    have hrest : (t.takeString customGenreI).2.abs = t.abs.del (.fourcc CUSTOM_GENRE) := by
      simp only [Tag.takeString, Tag.takeStringsOf, takeDataOf_snd t _ h, abs_removeDataOf]; rfl
    cases hc : t.abs.firstGenreCode with
    | none => simpa using hrest
    | some c =>
      have := stdGenreName_isSome c
      cases hs : stdGenreName c with
      | none =>
        rw [hs] at this
        have hn : ¬ (1 ≤ c ∧ c ≤ 80) := by simpa using this.symm
        simp only [Option.bind_some, hs, hn, if_false]
        exact hrest
      | some g =>
        rw [hs] at this
        have hn : (1 ≤ c ∧ c ≤ 80) := by simpa using this.symm
        simp [hs, hn]

theorem insKey_nodup (ks : List DataIdent) (i) (h : ks.Nodup) : (OMap.insKey ks i).Nodup := by
  simp only [OMap.insKey]
  split
  · exact h
  · rename_i hi
    rw [List.nodup_append]
    refine ⟨h, by simp, ?_⟩
    intro a ha b hb
    simp only [List.mem_singleton] at hb
    subst hb
    rintro rfl
    exact hi ha

theorem put_nodup (m : OMap) (i v) (h : m.keys.Nodup) : (m.put i v).keys.Nodup := insKey_nodup _ _ h
theorem del_nodup (m : OMap) (i) (h : m.keys.Nodup) : (m.del i).keys.Nodup := h.sublist List.filter_sublist
theorem keepOf_nodup (m : OMap) (i p) (h : m.keys.Nodup) : (m.keepOf i p).keys.Nodup := by
  simp only [OMap.keepOf]; split
  · exact del_nodup m i h
  · exact h
theorem keep_nodup (m : OMap) (p) (h : m.keys.Nodup) : (m.keep p).keys.Nodup :=
  h.sublist List.filter_sublist
theorem modify_nodup (m : OMap) (i f) (h : m.keys.Nodup) : (m.modify i f).keys.Nodup := by
  simp only [OMap.modify]; split <;> exact h
theorem firstBytes_nodup (m : OMap) (i f d) (h : m.keys.Nodup) : (m.firstBytes i f d).keys.Nodup := by
  simp only [OMap.firstBytes]; split
  · exact h
  · exact put_nodup _ _ _ h

theorem apply_nodup (m : OMap) (o : TagOp) (h : m.keys.Nodup) : (m.apply o).keys.Nodup := by
  cases o <;> simp only [OMap.apply, OMap.append]
  case clear => simp [OMap.empty]
  case removeNumber i =>
    split
    · exact firstBytes_nodup _ _ _ _ h
    · exact del_nodup _ _ h
  case removeTotal i =>
    split
    · exact firstBytes_nodup _ _ _ _ h
    · exact del_nodup _ _ h
  case takeGenre =>
    split
    · split
      · exact h
      · exact del_nodup _ _ h
    · exact del_nodup _ _ h
  all_goals first
    | exact put_nodup _ _ _ h
    | exact del_nodup _ _ h
    | exact keepOf_nodup _ _ _ h
    | exact keep_nodup _ _ h
    | exact modify_nodup _ _ _ h
    | exact firstBytes_nodup _ _ _ _ h
    | exact del_nodup _ _ (put_nodup _ _ _ h)
    | exact del_nodup _ _ (del_nodup _ _ h)
    | exact h

theorem run_noDup (o : TagOp) (t : Tag) (h : t.NoDup) : (o.run t).NoDup := by
  rw [noDup_iff, abs_run o t h]
  exact apply_nodup _ _ ((noDup_iff t).mp h)

theorem runOps_noDup (ops : List TagOp) (t : Tag) (h : t.NoDup) : (runOps ops t).NoDup := by
  induction ops generalizing t with
  | nil => exact h
  | cons o ops ih => exact ih _ (run_noDup o t h)

theorem abs_runOps (ops : List TagOp) (t : Tag) (h : t.NoDup) :
    (runOps ops t).abs = ops.foldl OMap.apply t.abs := by
  induction ops generalizing t with
  | nil => rfl
  | cons o ops ih =>
    have := ih _ (run_noDup o t h)
    rw [abs_run o t h] at this
    exact this

/-! ### reading establishes uniqueness -/

theorem mergeItem_keys (l : List AtomData) (a : AtomData) :
    keysL (mergeItem l a) = OMap.insKey (keysL l) a.ident := by
  induction l with
  | nil => simp [mergeItem, OMap.insKey]
  | cons o l ih =>
    simp only [mergeItem]
    by_cases h : a.ident = o.ident
    · simp [h, OMap.insKey]
    · simp only [h, if_false, keysL_cons, ih, OMap.insKey, List.mem_cons, false_or]
      split <;> rfl

theorem parseIlst_noDup {size e F p l q} (h : parseIlst size e F p = .ok (l, q)) : (keysL l).Nodup := by
  refine loop_inv (fun l => (keysL l).Nodup) ?_ (by simp) h
  intro s hd p s' p' hs hh
  rw [P.if_apply] at hh
  split at hh
  · obtain ⟨_, _, _, hh⟩ := P.bind_inv hh
    obtain ⟨rfl, -⟩ := P.pure_inv hh
    exact hs
  · obtain ⟨_, _, _, hh⟩ := P.bind_inv hh
    obtain ⟨a, _, _, hh⟩ := P.bind_inv hh
    obtain ⟨rfl, -⟩ := P.pure_inv hh
    rw [mergeItem_keys]
    exact insKey_nodup _ _ hs

/-- Uniqueness inside optional atoms. -/
def optND : Option (List AtomData) → Prop
  | some l => (keysL l).Nodup
  | none => True

theorem parseMeta_noDup {size e F p l q} (h : parseMeta size e F p = .ok (l, q)) : optND l := by
  rw [parseMeta] at h
  obtain ⟨⟨v, fl⟩, _, _, h⟩ := P.bind_inv h
  simp only [P.if_apply] at h
  split at h
  · exact absurd h P.fail_inv
  · refine loop_inv optND ?_ (by simp [optND]) h
    intro s hd p s' p' hs hh
    rw [P.if_apply] at hh
    split at hh
    · obtain ⟨a, _, ha, hh⟩ := P.bind_inv hh
      obtain ⟨rfl, -⟩ := P.pure_inv hh
      exact parseIlst_noDup ha
    · obtain ⟨_, _, _, hh⟩ := P.bind_inv hh
      obtain ⟨rfl, -⟩ := P.pure_inv hh
      exact hs

theorem parseUdta_noDup {size e F p l q} (h : parseUdta size e F p = .ok (l, q)) :
    optND (l.bind id) := by
  refine loop_inv (fun l : Option (Option (List AtomData)) => optND (l.bind id)) ?_ (by simp [optND]) h
  intro s hd p s' p' hs hh
  rw [P.if_apply] at hh
  split at hh
  · obtain ⟨a, _, ha, hh⟩ := P.bind_inv hh
    obtain ⟨rfl, -⟩ := P.pure_inv hh
    exact parseMeta_noDup ha
  · obtain ⟨_, _, _, hh⟩ := P.bind_inv hh
    obtain ⟨rfl, -⟩ := P.pure_inv hh
    exact hs

theorem parseMoov_noDup {size e F p m q} (h : parseMoov size e F p = .ok (m, q)) :
    optND ((m.udta.bind id).bind id) := by
  refine loop_inv (fun m : Moov => optND ((m.udta.bind id).bind id)) ?_ (by simp [optND]) h
  intro s hd p s' p' hs hh
  simp only [moovHandle, P.if_apply] at hh
  split at hh
  · obtain ⟨a, _, ha, hh⟩ := P.bind_inv hh
    obtain ⟨rfl, -⟩ := P.pure_inv hh
    exact hs
  split at hh
  · obtain ⟨a, _, ha, hh⟩ := P.bind_inv hh
    obtain ⟨rfl, -⟩ := P.pure_inv hh
    exact hs
  split at hh
  · obtain ⟨a, _, ha, hh⟩ := P.bind_inv hh
    obtain ⟨rfl, -⟩ := P.pure_inv hh
    exact parseUdta_noDup ha
  · obtain ⟨_, _, _, hh⟩ := P.bind_inv hh
    obtain ⟨rfl, -⟩ := P.pure_inv hh
    exact hs

theorem topWalk_noDup {len e F} : ∀ {f parsed p m q}, topWalk len f parsed e F p = .ok (m, q) →
    optND ((m.udta.bind id).bind id)
  | 0, _, _, _, _, h => by simp [topWalk, outOfFuel] at h
  | f+1, parsed, p, m, q, h => by
    simp only [topWalk, P.if_apply] at h
    split at h
    · exact absurd h P.fail_inv
    · obtain ⟨hd, _, _, h⟩ := P.bind_inv h
      rw [P.if_apply] at h
      split at h
      · exact parseMoov_noDup h
      · obtain ⟨_, _, _, h⟩ := P.bind_inv h
        obtain ⟨_, _, _, h⟩ := P.bind_inv h
        exact topWalk_noDup h

theorem readTag_noDup {e F pos t} (h : readTag e F pos = .ok t) : t.NoDup := by
  simp only [readTag] at h
  generalize hr : readTagP e F pos = r at h
  cases r <;> simp only [Out.val, Out.ok.injEq, reduceCtorEq] at h
  rename_i a
  obtain ⟨t', q⟩ := a
  subst h
  rw [readTagP] at hr
  obtain ⟨ft, _, _, hr⟩ := P.bind_inv hr
  obtain ⟨len, _, _, hr⟩ := P.bind_inv hr
  obtain ⟨f, _, _, hr⟩ := P.bind_inv hr
  obtain ⟨m, _, hm, hr⟩ := P.bind_inv hr
  obtain ⟨rfl, -⟩ := P.pure_inv hr
  have := topWalk_noDup hm
  simp only [Tag.NoDup, mkTag]
  cases h : (m.udta.bind id).bind id with
  | none => simp
  | some l => rw [h] at this; exact this

end Mp4
