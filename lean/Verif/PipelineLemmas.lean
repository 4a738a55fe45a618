import Verif.IntGame
import Verif.Pipeline
import Verif.Embed

/-! # Lemmas for C45 -/

namespace Gr1c

open PTree

/-! ## Bits and values -/

theorem bits_of_fun (k : ℕ) (g : ℕ → Bool) :
    let x := bitsVal ((List.range k).map fun i => if g i then (1 : ℤ) else 0)
    0 ≤ x ∧ x < 2 ^ k ∧ ∀ i < k, intBit x i = g i := by
  intro x
  have h01 : Is01 ((List.range k).map fun i => if g i then (1 : ℤ) else 0) := by
    intro b hb
    obtain ⟨i, _, rfl⟩ := List.mem_map.1 hb
    by_cases h : g i <;> simp [h]
  have hr := bitsVal_range _ h01
  simp only [List.length_map, List.length_range] at hr
  refine ⟨hr.1, hr.2, ?_⟩
  have e : bitsVal ((List.range k).map fun i => if intBit x i then (1 : ℤ) else 0) = x := by
    rw [bitsVal_bits, Int.emod_eq_of_lt hr.1 hr.2]
  have := bitsVal_inj _ _ (by simp) (bits_is01 x k) h01 e
  intro i hi
  have h2 := List.map_inj_left.1 this i (List.mem_range.2 hi)
  cases h3 : intBit x i <;> cases h4 : g i <;> simp_all

theorem bitsVal_congr (k : ℕ) (g g' : ℕ → Bool) (h : ∀ i < k, g i = g' i) :
    bitsVal ((List.range k).map fun i => if g i then (1 : ℤ) else 0) =
      bitsVal ((List.range k).map fun i => if g' i then (1 : ℤ) else 0) := by
  congr 1
  apply List.map_congr_left
  intro i hi
  rw [h i (List.mem_range.1 hi)]

/-! ## Names of the expanded variables -/

/-- Names of the bits of one declared variable. -/
def blockNames (d : Name × ℤ) : List Name :=
  if 0 ≤ d.2 then (List.range (domBits d.2)).map (bitName d.1) else [d.1]

theorem expDecls_names (ds : Decls) : (expDecls ds).map Prod.fst = ds.flatMap blockNames := by
  unfold expDecls
  rw [List.map_flatMap]
  congr 1
  funext d
  unfold blockNames
  split <;> simp

theorem expDecls_tree (ds : Decls) : ofItems (expandedItems ds) = Decls.tree (expDecls ds) := by
  unfold Decls.tree expDecls expandedItems
  rw [List.map_flatMap]
  congr 2
  funext d
  split <;> simp [bitItems]

/-- Value of a named bit. -/
def bitOfName (xs : Decls) (w : Val xs.length) (n : Name) : Bool :=
  if h : (xs.map Prod.fst).idxOf n < xs.length then w ⟨_, h⟩ else false

theorem idxOf_name {xs : Decls} (hn : (xs.map Prod.fst).Nodup) (k : Fin xs.length) :
    (xs.map Prod.fst).idxOf xs[k].1 = k.val := by
  have hk : k.val < (xs.map Prod.fst).length := by simp
  have := List.Nodup.idxOf_getElem hn k.val hk
  simpa using this

theorem bitOfName_get {xs : Decls} (hn : (xs.map Prod.fst).Nodup) (w : Val xs.length) (k : Fin xs.length) :
    bitOfName xs w xs[k].1 = w k := by
  have h := idxOf_name hn k
  unfold bitOfName
  rw [dif_pos (by rw [h]; exact k.isLt)]
  exact val_congr w h

theorem valOfName_get {ds : Decls} (hn : (ds.map Prod.fst).Nodup) (v : DVal ds) (i : Fin ds.length) :
    valOfName ds v ds[i].1 = ((v i).val : ℤ) := by
  have h := idxOf_name hn i
  have hlt : (ds.map Prod.fst).idxOf ds[i].1 < ds.length := by rw [h]; exact i.isLt
  unfold valOfName
  rw [dif_pos hlt]
  have : (⟨_, hlt⟩ : Fin ds.length) = i := Fin.ext h
  exact congrArg (fun j : Fin ds.length => ((v j).val : ℤ)) this

theorem mem_names {xs : Decls} {m : Name} (h : m ∈ xs.map Prod.fst) : ∃ k : Fin xs.length, xs[k].1 = m := by
  obtain ⟨d, hd, rfl⟩ := List.mem_map.1 h
  obtain ⟨k, hk, rfl⟩ := List.getElem_of_mem hd
  exact ⟨⟨k, hk⟩, rfl⟩

theorem block_mem {ds : Decls} (i : Fin ds.length) {m : Name} (h : m ∈ blockNames ds[i]) :
    m ∈ (expDecls ds).map Prod.fst := by
  rw [expDecls_names]
  exact List.mem_flatMap.2 ⟨ds[i], List.getElem_mem _, h⟩

theorem own_unique {ds : Decls} (he : ((expDecls ds).map Prod.fst).Nodup) {i i' : Fin ds.length} {m : Name}
    (h : m ∈ blockNames ds[i]) (h' : m ∈ blockNames ds[i']) : i = i' := by
  rw [expDecls_names, List.nodup_flatMap] at he
  have hp := List.pairwise_iff_getElem.1 he.2
  rcases Nat.lt_trichotomy i.val i'.val with hlt | heq | hgt
  · exact absurd h' (hp i.val i'.val i.isLt i'.isLt hlt h)
  · exact Fin.ext heq
  · exact absurd h (hp i'.val i.val i'.isLt i.isLt hgt h')

theorem own_bit_unique {ds : Decls} (he : ((expDecls ds).map Prod.fst).Nodup) {i : Fin ds.length}
    (h0 : 0 ≤ ds[i].2) {j j' : ℕ} (hj : j < domBits ds[i].2) (hj' : j' < domBits ds[i].2)
    (h : bitName ds[i].1 j = bitName ds[i].1 j') : j = j' := by
  rw [expDecls_names, List.nodup_flatMap] at he
  have hn := he.1 ds[i] (List.getElem_mem _)
  unfold blockNames at hn
  rw [if_pos h0] at hn
  exact List.inj_on_of_nodup_map hn (List.mem_range.2 hj) (List.mem_range.2 hj') h

theorem bool_mem {d : Name × ℤ} (h : d.2 < 0) : d.1 ∈ blockNames d := by
  unfold blockNames; rw [if_neg (by omega)]; exact List.mem_singleton.2 rfl

theorem int_mem {d : Name × ℤ} (h : 0 ≤ d.2) {j : ℕ} (hj : j < domBits d.2) :
    bitName d.1 j ∈ blockNames d := by
  unfold blockNames; rw [if_pos h]; exact List.mem_map.2 ⟨j, List.mem_range.2 hj, rfl⟩

/-- Encoding of a Boolean. -/
theorem enc_bool {ds : Decls} (he : ((expDecls ds).map Prod.fst).Nodup) (v : DVal ds) (i : Fin ds.length)
    (h : ds[i].2 < 0) : bitOfName (expDecls ds) (encVal ds v) ds[i].1 = ((v i).val != 0) := by
  obtain ⟨k, hk⟩ := mem_names (block_mem i (bool_mem h))
  rw [← hk, bitOfName_get he, Bool.eq_iff_iff]
  simp only [encVal, decide_eq_true_eq, bne_iff_ne, ne_eq, hk]
  constructor
  · rintro ⟨i', ⟨h1, h2, h3⟩ | ⟨h1, j, hj, h2, h3⟩⟩
    · have : i = i' := own_unique he (bool_mem h) (h2 ▸ bool_mem h1)
      rw [this]; exact h3
    · have : i = i' := own_unique he (bool_mem h) (h2 ▸ int_mem h1 hj)
      subst this; omega
  · intro h3; exact ⟨i, Or.inl ⟨h, rfl, h3⟩⟩

/-- Encoding of an integer. -/
theorem enc_int {ds : Decls} (he : ((expDecls ds).map Prod.fst).Nodup) (v : DVal ds) (i : Fin ds.length)
    (h : 0 ≤ ds[i].2) {j : ℕ} (hj : j < domBits ds[i].2) :
    bitOfName (expDecls ds) (encVal ds v) (bitName ds[i].1 j) = intBit ((v i).val : ℤ) j := by
  obtain ⟨k, hk⟩ := mem_names (block_mem i (int_mem h hj))
  rw [← hk, bitOfName_get he, Bool.eq_iff_iff]
  simp only [encVal, decide_eq_true_eq, hk]
  constructor
  · rintro ⟨i', ⟨h1, h2, h3⟩ | ⟨h1, j', hj', h2, h3⟩⟩
    · have : i = i' := own_unique he (int_mem h hj) (h2 ▸ bool_mem h1)
      subst this; omega
    · have : i = i' := own_unique he (int_mem h hj) (h2 ▸ int_mem h1 hj')
      subst this
      have := own_bit_unique he h hj hj' h2
      subst this
      exact h3
  · intro h3; exact ⟨i, Or.inr ⟨h, j, hj, rfl, h3⟩⟩

/-- The integer encoded by the bits of a variable. -/
def decInt (ds : Decls) (w : Val (expDecls ds).length) (d : Name × ℤ) : ℤ :=
  bitsVal ((List.range (domBits d.2)).map fun i =>
    if bitOfName (expDecls ds) w (bitName d.1 i) then (1 : ℤ) else 0)

theorem dval_le {ds : Decls} (v : DVal ds) (i : Fin ds.length) (h : 0 ≤ ds[i].2) :
    ((v i).val : ℤ) ≤ ds[i].2 := by
  have := (v i).isLt
  have hc : dcard ds[i] = ds[i].2.toNat + 1 := by unfold dcard; rw [if_neg (by omega)]
  omega

theorem decInt_enc {ds : Decls} (he : ((expDecls ds).map Prod.fst).Nodup) (v : DVal ds) (i : Fin ds.length)
    (h : 0 ≤ ds[i].2) : decInt ds (encVal ds v) ds[i] = ((v i).val : ℤ) := by
  unfold decInt
  rw [bitsVal_congr _ _ (fun j => intBit ((v i).val : ℤ) j) (fun j hj => enc_int he v i h hj), bitsVal_bits]
  apply Int.emod_eq_of_lt (by omega)
  exact domBits_fits _ _ (by omega) (dval_le v i h)

theorem val_ext {ds : Decls} (he : ((expDecls ds).map Prod.fst).Nodup) (w w' : Val (expDecls ds).length)
    (h : ∀ i : Fin ds.length, ∀ m ∈ blockNames ds[i],
      bitOfName (expDecls ds) w m = bitOfName (expDecls ds) w' m) : w = w' := by
  funext k
  rw [← bitOfName_get he w k, ← bitOfName_get he w' k]
  have hm : (expDecls ds)[k].1 ∈ (expDecls ds).map Prod.fst := List.mem_map.2 ⟨_, List.getElem_mem _, rfl⟩
  rw [expDecls_names] at hm
  obtain ⟨d, hd, hm⟩ := List.mem_flatMap.1 hm
  obtain ⟨i, hi, rfl⟩ := List.getElem_of_mem hd
  exact h ⟨i, hi⟩ _ hm

theorem enc_inj {ds : Decls} (he : ((expDecls ds).map Prod.fst).Nodup) (hb : GoodDecls ds) :
    Function.Injective (encVal ds) := by
  intro v v' h
  funext i
  apply Fin.ext
  by_cases h0 : 0 ≤ ds[i].2
  · have h1 := decInt_enc he v i h0
    rw [h, decInt_enc he v' i h0] at h1
    omega
  · have h1 := enc_bool he v i (by omega)
    rw [h, enc_bool he v' i (by omega)] at h1
    have a := (v i).isLt
    have b := (v' i).isLt
    have hc : dcard ds[i] = 2 := by unfold dcard; rw [if_pos (by omega)]
    have : ((v' i).val = 0 ↔ (v i).val = 0) := by
      have := congrArg (· = false) h1
      simpa using this
    omega

/-- Bit patterns encoding declared values are encodings. -/
theorem enc_surj {ds : Decls} (he : ((expDecls ds).map Prod.fst).Nodup) (w : Val (expDecls ds).length)
    (hd : ∀ d ∈ ds, 0 ≤ d.2 → decInt ds w d ≤ d.2) : ∃ v, encVal ds v = w := by
  have hx : ∀ i : Fin ds.length, ∃ x : Fin (dcard ds[i]),
      (ds[i].2 < 0 → (x.val != 0) = bitOfName (expDecls ds) w ds[i].1) ∧
      (0 ≤ ds[i].2 → (x.val : ℤ) = decInt ds w ds[i]) := by
    intro i
    by_cases h0 : 0 ≤ ds[i].2
    · have hr := bits_of_fun (domBits ds[i].2) fun j => bitOfName (expDecls ds) w (bitName ds[i].1 j)
      have hle := hd ds[i] (List.getElem_mem _) h0
      change 0 ≤ decInt ds w ds[i] ∧ _ at hr
      refine ⟨⟨(decInt ds w ds[i]).toNat, ?_⟩, fun h => by omega, fun _ => ?_⟩
      · unfold dcard; rw [if_neg (by omega)]; omega
      · simp only; omega
    · refine ⟨⟨(bitOfName (expDecls ds) w ds[i].1).toNat, ?_⟩, fun _ => ?_, fun h => by omega⟩
      · unfold dcard; rw [if_pos (by omega)]
        cases bitOfName (expDecls ds) w ds[i].1 <;> simp
      · cases bitOfName (expDecls ds) w ds[i].1 <;> rfl
  choose v hv1 hv2 using hx
  refine ⟨v, val_ext he _ _ ?_⟩
  intro i m hm
  by_cases h0 : 0 ≤ ds[i].2
  · unfold blockNames at hm
    rw [if_pos h0] at hm
    obtain ⟨j, hj, rfl⟩ := List.mem_map.1 hm
    rw [List.mem_range] at hj
    rw [enc_int he v i h0 hj, hv2 i h0]
    exact (bits_of_fun (domBits ds[i].2) fun j => bitOfName (expDecls ds) w (bitName ds[i].1 j)).2.2 j hj
  · unfold blockNames at hm
    rw [if_neg h0, List.mem_singleton] at hm
    rw [hm, enc_bool he v i (by omega), hv1 i (by omega)]

/-! ## States -/

section states

variable {evars svars : Decls}

/-- Bit states of the expanded specification. -/
abbrev XState (evars svars : Decls) := BState (expDecls evars).length (expDecls svars).length

/-- Value of a named bit in a state. -/
def stBit (s : XState evars svars) (n : Name) : Bool :=
  if n ∈ (expDecls evars).map Prod.fst then bitOfName (expDecls evars) s.1 n
  else bitOfName (expDecls svars) s.2 n

/-- Declared domain of a variable. -/
def declDom (ds : Decls) (n : Name) : ℤ := ((ds.find? fun d => d.1 == n).map Prod.snd).getD (-1)

/-- Bits are read from the states, integers decoded from their bits. -/
def bitEnv (s t : XState evars svars) : Env where
  b nx n := stBit (if nx then t else s) n
  z nx n := bitsVal ((List.range (domBits (declDom (evars ++ svars) n))).map fun i =>
    if stBit (if nx then t else s) (bitName n i) then (1 : ℤ) else 0)

theorem declDom_eq {ds : Decls} (hn : (ds.map Prod.fst).Nodup) {d : Name × ℤ} (hd : d ∈ ds) :
    declDom ds d.1 = d.2 := by
  unfold declDom
  cases hf : ds.find? fun x => x.1 == d.1 with
  | none =>
    have := List.find?_eq_none.1 hf d hd
    simp at this
  | some x =>
    have h1 : x.1 = d.1 := by simpa using List.find?_some hf
    have h2 := List.mem_of_find?_eq_some hf
    have : x = d := List.inj_on_of_nodup_map hn h2 hd h1
    rw [this]; rfl

variable (hF : Fresh evars svars)
include hF

theorem Fresh.nevars : (evars.map Prod.fst).Nodup := by
  have := hF.declared; rw [List.map_append] at this; exact (List.nodup_append.1 this).1

theorem Fresh.nsvars : (svars.map Prod.fst).Nodup := by
  have := hF.declared; rw [List.map_append] at this; exact (List.nodup_append.1 this).2.1

theorem Fresh.xevars : ((expDecls evars).map Prod.fst).Nodup := by
  have := hF.expanded; rw [List.map_append] at this; exact (List.nodup_append.1 this).1

theorem Fresh.xsvars : ((expDecls svars).map Prod.fst).Nodup := by
  have := hF.expanded; rw [List.map_append] at this; exact (List.nodup_append.1 this).2.1

theorem Fresh.xdisj {m : Name} (h : m ∈ (expDecls svars).map Prod.fst) :
    m ∉ (expDecls evars).map Prod.fst := by
  have := hF.expanded
  rw [List.map_append] at this
  exact fun h2 => (List.nodup_append.1 this).2.2 m h2 m h rfl

theorem Fresh.disj {m : Name} (h : m ∈ svars.map Prod.fst) : m ∉ evars.map Prod.fst := by
  have := hF.declared
  rw [List.map_append] at this
  exact fun h2 => (List.nodup_append.1 this).2.2 m h2 m h rfl

omit hF in
theorem stBit_e (s : XState evars svars) {m : Name} (h : m ∈ (expDecls evars).map Prod.fst) :
    stBit s m = bitOfName (expDecls evars) s.1 m := by unfold stBit; rw [if_pos h]

theorem stBit_s (s : XState evars svars) {m : Name} (h : m ∈ (expDecls svars).map Prod.fst) :
    stBit s m = bitOfName (expDecls svars) s.2 m := by
  unfold stBit; rw [if_neg (hF.xdisj h)]

/-- The value of `d` decoded from its bits. -/
theorem bitEnv_z_e (s t : XState evars svars) (nx : Bool) {d : Name × ℤ} (hd : d ∈ evars) (h0 : 0 ≤ d.2) :
    (bitEnv s t).z nx d.1 = decInt evars (if nx then t else s).1 d := by
  have e := declDom_eq hF.declared (List.mem_append_left svars hd)
  simp only [bitEnv, decInt, e]
  obtain ⟨i, hi, rfl⟩ := List.getElem_of_mem hd
  apply bitsVal_congr
  intro j hj
  exact stBit_e _ (block_mem ⟨i, hi⟩ (int_mem h0 hj))

theorem bitEnv_z_s (s t : XState evars svars) (nx : Bool) {d : Name × ℤ} (hd : d ∈ svars) (h0 : 0 ≤ d.2) :
    (bitEnv s t).z nx d.1 = decInt svars (if nx then t else s).2 d := by
  have e := declDom_eq hF.declared (List.mem_append_right evars hd)
  simp only [bitEnv, decInt, e]
  obtain ⟨i, hi, rfl⟩ := List.getElem_of_mem hd
  apply bitsVal_congr
  intro j hj
  exact stBit_s hF _ (block_mem ⟨i, hi⟩ (int_mem h0 hj))

theorem bitEnv_encodes (s t : XState evars svars) : EncodesAll (bitEnv s t) (evars ++ svars) := by
  intro d hd h0 nx
  have e := declDom_eq hF.declared hd
  have h := bits_of_fun (domBits d.2) fun i => stBit (if nx then t else s) (bitName d.1 i)
  unfold Encodes
  simp only [bitEnv, e]
  refine ⟨h.1, h.2.1, ?_⟩
  intro i hi
  exact (h.2.2 i hi).symm

/-- On encoded values the two environments agree. -/
theorem agree_e (s t : XState evars svars) (s' t' : IState evars svars) (nx : Bool)
    (h : (if nx then t else s).1 = encVal evars (if nx then t' else s').1) {d : Name × ℤ} (hd : d ∈ evars) :
    (d.2 < 0 → (bitEnv s t).b nx d.1 = (intEnv s' t').b nx d.1) ∧
    (0 ≤ d.2 → (bitEnv s t).z nx d.1 = (intEnv s' t').z nx d.1) := by
  have hdn : d.1 ∈ evars.map Prod.fst := List.mem_map.2 ⟨d, hd, rfl⟩
  obtain ⟨i, hi, rfl⟩ := List.getElem_of_mem hd
  have hv := valOfName_get hF.nevars (if nx then t' else s').1 ⟨i, hi⟩
  constructor
  · intro h0
    have hb := enc_bool hF.xevars (if nx then t' else s').1 ⟨i, hi⟩ h0
    simp only [bitEnv, intEnv, stVal, if_pos hdn]
    have hm : evars[i].1 ∈ (expDecls evars).map Prod.fst := block_mem ⟨i, hi⟩ (bool_mem h0)
    rw [stBit_e _ hm, h]
    change valOfName evars _ evars[i].1 = _ at hv
    change bitOfName _ _ evars[i].1 = _ at hb
    rw [hb, hv]
    rw [Bool.eq_iff_iff]; simp
  · intro h0
    rw [bitEnv_z_e hF s t nx hd h0, h]
    have hz := decInt_enc hF.xevars (if nx then t' else s').1 ⟨i, hi⟩ h0
    change decInt evars _ evars[i] = _ at hz
    simp only [intEnv, stVal, if_pos hdn]
    change valOfName evars _ evars[i].1 = _ at hv
    rw [hz, hv]

theorem agree_s (s t : XState evars svars) (s' t' : IState evars svars) (nx : Bool)
    (h : (if nx then t else s).2 = encVal svars (if nx then t' else s').2) {d : Name × ℤ} (hd : d ∈ svars) :
    (d.2 < 0 → (bitEnv s t).b nx d.1 = (intEnv s' t').b nx d.1) ∧
    (0 ≤ d.2 → (bitEnv s t).z nx d.1 = (intEnv s' t').z nx d.1) := by
  have hdn : d.1 ∉ evars.map Prod.fst := hF.disj (List.mem_map.2 ⟨d, hd, rfl⟩)
  obtain ⟨i, hi, rfl⟩ := List.getElem_of_mem hd
  have hv := valOfName_get hF.nsvars (if nx then t' else s').2 ⟨i, hi⟩
  constructor
  · intro h0
    have hb := enc_bool hF.xsvars (if nx then t' else s').2 ⟨i, hi⟩ h0
    simp only [bitEnv, intEnv, stVal, if_neg hdn]
    have hm : svars[i].1 ∈ (expDecls svars).map Prod.fst := block_mem ⟨i, hi⟩ (bool_mem h0)
    rw [stBit_s hF _ hm, h]
    change valOfName svars _ svars[i].1 = _ at hv
    change bitOfName _ _ svars[i].1 = _ at hb
    rw [hb, hv]
    rw [Bool.eq_iff_iff]; simp
  · intro h0
    rw [bitEnv_z_s hF s t nx hd h0, h]
    have hz := decInt_enc hF.xsvars (if nx then t' else s').2 ⟨i, hi⟩ h0
    change decInt svars _ svars[i] = _ at hz
    simp only [intEnv, stVal, if_neg hdn]
    change valOfName svars _ svars[i].1 = _ at hv
    rw [hz, hv]

/-- In-domain bit states are encodings. -/
theorem dom_e (s t : XState evars svars) (nx : Bool) (h : DomAll (bitEnv s t) evars nx) :
    ∃ v, encVal evars v = (if nx then t else s).1 := by
  apply enc_surj hF.xevars
  intro d hd h0
  rw [← bitEnv_z_e hF s t nx hd h0]
  exact h d hd h0

theorem dom_s (s t : XState evars svars) (nx : Bool) (h : DomAll (bitEnv s t) svars nx) :
    ∃ v, encVal svars v = (if nx then t else s).2 := by
  apply enc_surj hF.xsvars
  intro d hd h0
  rw [← bitEnv_z_s hF s t nx hd h0]
  exact h d hd h0

theorem enc_dom_e (s t : XState evars svars) (nx : Bool) (v : DVal evars)
    (h : (if nx then t else s).1 = encVal evars v) : DomAll (bitEnv s t) evars nx := by
  intro d hd h0
  rw [bitEnv_z_e hF s t nx hd h0, h]
  obtain ⟨i, hi, rfl⟩ := List.getElem_of_mem hd
  have := decInt_enc hF.xevars v ⟨i, hi⟩ h0
  change decInt evars _ evars[i] = _ at this
  rw [this]
  exact dval_le v ⟨i, hi⟩ h0

theorem enc_dom_s (s t : XState evars svars) (nx : Bool) (v : DVal svars)
    (h : (if nx then t else s).2 = encVal svars v) : DomAll (bitEnv s t) svars nx := by
  intro d hd h0
  rw [bitEnv_z_s hF s t nx hd h0, h]
  obtain ⟨i, hi, rfl⟩ := List.getElem_of_mem hd
  have := decInt_enc hF.xsvars v ⟨i, hi⟩ h0
  change decInt svars _ svars[i] = _ at this
  rw [this]
  exact dval_le v ⟨i, hi⟩ h0

/-- The system bits all 0 encode the value 0 everywhere. -/
theorem zero_dom_s (s : XState evars svars) (e : Val (expDecls evars).length) :
    DomAll (bitEnv s (e, fun _ => false)) svars true := by
  intro d hd h0
  rw [bitEnv_z_s hF _ _ true hd h0]
  have : ∀ k : ℕ, bitsVal ((List.range k).map fun i =>
      if bitOfName (expDecls svars) (fun _ => false) (bitName d.1 i) then (1 : ℤ) else 0) = 0 := by
    intro k
    have e1 : bitsVal ((List.range k).map fun i =>
      if bitOfName (expDecls svars) (fun _ => false) (bitName d.1 i) then (1 : ℤ) else 0) =
      bitsVal ((List.range k).map fun i => if intBit 0 i then (1 : ℤ) else 0) := by
      apply bitsVal_congr
      intro i _
      unfold bitOfName intBit
      split <;> simp
    rw [e1, bitsVal_bits]; simp
  unfold decInt
  simp only [if_true]
  rw [this]; exact h0

/-- `joinAsg s t` gives the variables the values they have in `bitEnv s t`. -/
theorem join_agrees (s t : XState evars svars) (k : ℕ)
    (hk : k < (expDecls evars ++ expDecls svars).length) :
    joinAsg s t ⟨k, by rw [List.length_append] at hk; omega⟩ =
      (bitEnv s t).b false (expDecls evars ++ expDecls svars)[k].1 ∧
    joinAsg s t ⟨(expDecls evars ++ expDecls svars).length + k, by rw [List.length_append] at hk ⊢; omega⟩ =
      (bitEnv s t).b true (expDecls evars ++ expDecls svars)[k].1 := by
  have hl : (expDecls evars ++ expDecls svars).length = (expDecls evars).length + (expDecls svars).length :=
    List.length_append
  by_cases h : k < (expDecls evars).length
  · have hm : (expDecls evars)[k].1 ∈ (expDecls evars).map Prod.fst :=
      List.mem_map.2 ⟨_, List.getElem_mem _, rfl⟩
    have hb : ∀ w, bitOfName (expDecls evars) w (expDecls evars)[k].1 = w ⟨k, h⟩ :=
      fun w => bitOfName_get hF.xevars w ⟨k, h⟩
    simp only [bitEnv, List.getElem_append_left h, stBit_e _ hm, hb]
    constructor
    · unfold joinAsg; rw [dif_pos h]; simp
    · unfold joinAsg
      rw [dif_neg (by simp only; omega), dif_neg (by simp only; omega), dif_pos (by simp only; omega)]
      exact val_congr _ (by simp only; omega)
  · have h' : k - (expDecls evars).length < (expDecls svars).length := by omega
    have hm : (expDecls svars)[k - (expDecls evars).length].1 ∈ (expDecls svars).map Prod.fst :=
      List.mem_map.2 ⟨_, List.getElem_mem _, rfl⟩
    have hb : ∀ w, bitOfName (expDecls svars) w (expDecls svars)[k - (expDecls evars).length].1 = w ⟨_, h'⟩ :=
      fun w => bitOfName_get hF.xsvars w ⟨_, h'⟩
    simp only [bitEnv, List.getElem_append_right (Nat.le_of_not_lt h), stBit_s hF _ hm, hb]
    constructor
    · unfold joinAsg
      rw [dif_neg (by simp only; omega), dif_pos (by simp only; omega)]; simp
    · unfold joinAsg
      rw [dif_neg (by simp only; omega), dif_neg (by simp only; omega), dif_neg (by simp only; omega)]
      exact val_congr _ (by simp only; omega)

end states

end Gr1c
