import Verif.ListLemmas
import Verif.DotLemmas

/-!
# Lemmas for C60: the format `tulip`
-/

namespace Gr1c

/-! ## Texts that give elements -/

/-- Read between tags, `t` adds the elements `ns`. -/
def Gives (t : List Char) (ns : List XNode) : Prop :=
  ∀ (w r : List Char) (stack : List XFrame) (kids : List XNode), w.all isXmlBlank = true →
    ∃ w' : List Char, w'.all isXmlBlank = true ∧
      xBuild stack kids (xToks (.text w) (t ++ r)) = xBuild stack (kids ++ ns) (xToks (.text w') r)

theorem Gives.nil : Gives [] [] := fun w r stack kids hw => ⟨w, hw, by simp⟩

theorem Gives.append {t u : List Char} {ns ms : List XNode} (h : Gives t ns) (h' : Gives u ms) : Gives (t ++ u) (ns ++ ms) := by
  intro w r stack kids hw
  obtain ⟨w1, hw1, e1⟩ := h w (u ++ r) stack kids hw
  obtain ⟨w2, hw2, e2⟩ := h' w1 r stack (kids ++ ns) hw1
  refine ⟨w2, hw2, ?_⟩
  rw [List.append_assoc, e1, e2, List.append_assoc]

theorem xToks_text {t : List Char} (h : ∀ c ∈ t, c ≠ '<' ∧ c ≠ '&') : ∀ (w r : List Char),
    xToks (.text w) (t ++ r) = xToks (.text (w ++ t)) r := by
  induction t with
  | nil => intro w r; simp
  | cons c t ih =>
    intro w r
    have hc := h c List.mem_cons_self
    rw [List.cons_append, xToks]
    simp only [xStep, hc.1, hc.2, if_false, List.nil_append]
    rw [ih (fun c hc => h c (List.mem_cons_of_mem _ hc))]
    simp

theorem Gives.blank {t : List Char} (h : t.all isXmlBlank = true) : Gives t [] := by
  intro w r stack kids hw
  refine ⟨w ++ t, by rw [List.all_append, hw, h]; rfl, ?_⟩
  rw [xToks_text, List.append_nil]
  intro c hc
  have := List.all_eq_true.1 h c hc
  constructor <;> (rintro rfl; exact absurd this (by decide))

/-- A text that opens an element. -/
def TagOpens (t : List Char) (n : List Char) (as : List (List Char × List Char)) : Prop :=
  ∀ w r : List Char, xToks (.text w) (t ++ r) = .text w :: .opening n as :: xToks (.text []) r

/-- A text that closes an element. -/
def TagCloses (t : List Char) (n : List Char) : Prop :=
  ∀ w r : List Char, xToks (.text w) (t ++ r) = .text w :: .closing n :: xToks (.text []) r

theorem Gives.elem {t u v n : List Char} {as : List (List Char × List Char)} {ns : List XNode} (h1 : TagOpens t n as)
    (hn : (as.map Prod.fst).Nodup) (h2 : Gives u ns) (h3 : TagCloses v n) : Gives (t ++ (u ++ v)) [.elem n as ns] := by
  intro w r stack kids hw
  obtain ⟨w1, hw1, e1⟩ := h2 [] (v ++ r) ((n, as, kids) :: stack) [] rfl
  refine ⟨[], rfl, ?_⟩
  rw [List.append_assoc, h1, List.append_assoc, xBuild, if_pos hw, xBuild, if_pos hn, e1, h3, xBuild, if_pos hw1, xBuild]
  simp

/-- What a text between two tags adds. -/
def textKids (t : List Char) : List XNode := if t.all isXmlBlank then [] else [.text t]

theorem Gives.leaf {t u v n : List Char} {as : List (List Char × List Char)} (h1 : TagOpens t n as)
    (hn : (as.map Prod.fst).Nodup) (h2 : ∀ c ∈ u, c ≠ '<' ∧ c ≠ '&') (h3 : TagCloses v n) :
    Gives (t ++ (u ++ v)) [.elem n as (textKids u)] := by
  intro w r stack kids hw
  refine ⟨[], rfl, ?_⟩
  rw [List.append_assoc, h1, List.append_assoc, xBuild, if_pos hw, xBuild, if_pos hn, xToks_text h2, h3, List.nil_append]
  unfold textKids
  by_cases hb : u.all isXmlBlank = true
  · rw [xBuild, if_pos hb, xBuild]
    simp [hb]
  · rw [xBuild, if_neg hb, xBuild]
    simp [hb]

theorem Gives.flatMap {α : Type*} {f : α → List Char} {g : α → List XNode} {l : List α} (h : ∀ x ∈ l, Gives (f x) (g x)) :
    Gives (l.flatMap f) (l.flatMap g) := by
  induction l with
  | nil => exact Gives.nil
  | cons x l ih =>
    rw [List.flatMap_cons, List.flatMap_cons]
    exact (h x List.mem_cons_self).append (ih fun y hy => h y (List.mem_cons_of_mem _ hy))

/-- Characters of the value of an attribute. -/
def XPlain (c : Char) : Prop := c ≠ '"' ∧ c ≠ '<' ∧ c ≠ '&'

instance (c : Char) : Decidable (XPlain c) := inferInstanceAs (Decidable (_ ∧ _ ∧ _))

theorem xToks_val {t : List Char} (h : ∀ c ∈ t, XPlain c) : ∀ (n : List Char) (as : List (List Char × List Char)) (k v r : List Char),
    xToks (.val n as k v) (t ++ r) = xToks (.val n as k (v ++ t)) r := by
  induction t with
  | nil => intro n as k v r; simp
  | cons c t ih =>
    intro n as k v r
    have hc := h c List.mem_cons_self
    rw [List.cons_append, xToks]
    simp only [xStep, hc.1, hc.2.1, hc.2.2, or_self, if_false, List.nil_append]
    rw [ih (fun c hc => h c (List.mem_cons_of_mem _ hc))]
    simp

/-- An element `item`. -/
def itemElem (k v : List Char) : XNode := .elem "item".toList [("key".toList, k), ("value".toList, v)] []

theorem Gives.item {b k v : List Char} (hb : b.all isXmlBlank = true) (hk : ∀ c ∈ k, XPlain c) (hv : ∀ c ∈ v, XPlain c) :
    Gives (b ++ ("<item key=\"".toList ++ (k ++ ("\" value=\"".toList ++ (v ++ "\" />\n".toList))))) [itemElem k v] := by
  refine (Gives.blank hb).append (ns := []) (ms := [itemElem k v]) ?_
  intro w r stack kids hw
  refine ⟨['\n'], rfl, ?_⟩
  have e1 : ∀ x : List Char, xToks (.text w) ("<item key=\"".toList ++ x) =
      .text w :: xToks (.val "item".toList [] "key".toList []) x := fun _ => rfl
  have e2 : ∀ x : List Char, xToks (.val "item".toList [] "key".toList k) ("\" value=\"".toList ++ x) =
      xToks (.val "item".toList [("key".toList, k)] "value".toList []) x := fun _ => rfl
  have e3 : xToks (.val "item".toList [("key".toList, k)] "value".toList v) ("\" />\n".toList ++ r) =
      .single "item".toList [("key".toList, k), ("value".toList, v)] :: xToks (.text ['\n']) r := rfl
  simp only [List.append_assoc]
  rw [e1, xToks_val hk, List.nil_append, e2, xToks_val hv, List.nil_append, e3, xBuild, if_pos hw, xBuild, if_pos]
  · rfl
  · show ["key".toList, "value".toList].Nodup
    decide

/-! ## Numbers -/

theorem printInt_mem {v : ℤ} {c : Char} (h : c ∈ printInt v) : isDig c = true ∨ c = '-' := by
  unfold printInt at h
  split at h
  · rcases List.mem_cons.1 h with h | h
    · exact .inr h
    · exact .inl (decimal_digits _ _ h)
  · exact .inl (decimal_digits _ _ h)

theorem printInt_xplain (v : ℤ) : ∀ c ∈ printInt v, XPlain c := by
  intro c hc
  have := printInt_mem hc
  refine ⟨?_, ?_, ?_⟩ <;> (rintro rfl; revert this; decide)

theorem sp_xplain (v : ℤ) : ∀ c ∈ sp v, XPlain c := by
  intro c hc
  unfold sp at hc
  rcases List.mem_cons.1 hc with rfl | hc
  · decide
  · exact printInt_xplain v c hc

theorem printInt_not_blank (v : ℤ) (s : List Char) : ¬ (printInt v ++ s).all isXmlBlank = true := by
  have hne : printInt v ≠ [] := by
    unfold printInt
    split
    · simp
    · exact decimal_ne_nil _
  obtain ⟨d, ds, hd⟩ := List.exists_cons_of_ne_nil hne
  intro h
  have h1 := List.all_eq_true.1 h d (by rw [hd]; simp)
  have h2 := printInt_mem (v := v) (c := d) (by rw [hd]; simp)
  rcases h2 with h2 | rfl
  · unfold isXmlBlank at h1
    simp only [Bool.or_eq_true, beq_iff_eq] at h1
    rcases h1 with ((rfl | rfl) | rfl) | rfl <;> revert h2 <;> decide
  · revert h1
    decide

theorem printInt_not_spaces (v : ℤ) (s : List Char) : ¬ (printInt v ++ s).all (· == ' ') = true := by
  intro h
  refine printInt_not_blank v s (List.all_eq_true.2 fun c hc => ?_)
  have := List.all_eq_true.1 h c hc
  simp only [beq_iff_eq] at this
  subst this
  decide

theorem printInt_length (v : ℤ) : 1 ≤ (printInt v).length := by
  cases h : printInt v with
  | nil => exact absurd (by rw [h]; rfl) (printInt_not_blank v [])
  | cons => simp

/-- A number and further numbers, each after a blank. -/
theorem blankNums_ints (v : ℤ) (vs : List ℤ) (n : ℕ) (hn : vs.length + 1 < n) :
    blankNums n (printInt v ++ vs.flatMap sp) = some (v :: vs) := by
  obtain ⟨n, rfl⟩ : ∃ m, n = m + 1 := ⟨n - 1, by omega⟩
  rw [blankNums, if_neg (printInt_not_spaces v _), blankNum_plain v (sp_flatMap_head vs)]
  simp only
  rw [blankNums_sp vs n (by omega)]
  rfl

theorem kidNums_id (k : ℤ) : kidNums (textKids (printInt k)) = some [k] := by
  have h := printInt_not_blank k []
  rw [List.append_nil] at h
  unfold textKids
  rw [if_neg h]
  have := blankNums_ints k [] ((printInt k).length + 1) (by have := printInt_length k; simp; omega)
  rw [List.flatMap_nil, List.append_nil] at this
  exact this

theorem kidNums_anno (m r : ℤ) : kidNums (textKids (printInt m ++ sp r)) = some [m, r] := by
  unfold textKids
  rw [if_neg (printInt_not_blank m _)]
  have := blankNums_ints m [r] ((printInt m ++ sp r).length + 1) (by
    have := printInt_length m
    unfold sp
    simp
    omega)
  rw [List.flatMap_singleton] at this
  exact this

theorem sp_flatMap_blank : ∀ {vs : List ℤ}, (vs.flatMap sp).all isXmlBlank = true → vs = [] := by
  intro vs h
  cases vs with
  | nil => rfl
  | cons v vs =>
    rw [List.flatMap_cons, List.all_append, Bool.and_eq_true] at h
    have h1 := h.1
    unfold sp at h1
    rw [List.all_cons, Bool.and_eq_true] at h1
    have h2 := h1.2
    rw [← List.append_nil (printInt v)] at h2
    exact absurd h2 (printInt_not_blank v [])

theorem kidNums_list (vs : List ℤ) : kidNums (textKids (vs.flatMap sp)) = some vs := by
  unfold textKids
  by_cases h : (vs.flatMap sp).all isXmlBlank = true
  · rw [if_pos h, sp_flatMap_blank h]
    rfl
  · rw [if_neg h]
    exact blankNums_sp vs _ (by have := sp_flatMap_length vs; omega)

theorem oneNum_int (v : ℤ) : oneNum (printInt v) = some v := by
  unfold oneNum
  have := blankNums_ints v [] ((printInt v).length + 1) (by have := printInt_length v; simp; omega)
  rw [List.flatMap_nil, List.append_nil] at this
  rw [this]

/-! ## Items -/

theorem readItem_elem (f : List Char → Option ℤ) (k v : List Char) :
    readItem f (itemElem k v) = (f v).map fun x => (k, x) := by
  unfold readItem itemElem attrOf
  simp only [if_true]
  have e1 : ([("key".toList, k), ("value".toList, v)].find? fun a => a.1 = "key".toList) = some ("key".toList, k) := rfl
  have e2 : ([("key".toList, k), ("value".toList, v)].find? fun a => a.1 = "value".toList) = some ("value".toList, v) := rfl
  rw [e1, e2]
  simp only [Option.map_some, Option.bind_some, Option.bind_eq_bind]
  cases f v <;> rfl

/-- The text of a domain. -/
def domText (n : ℤ) : List Char := if 0 ≤ n then "[0,".toList ++ (printInt n ++ "]".toList) else "boolean".toList

theorem readDomain_text {n : ℤ} (h : -1 ≤ n) : readDomain (domText n) = some n := by
  unfold readDomain domText
  by_cases h0 : 0 ≤ n
  · rw [if_pos h0, if_neg, afterLit_append, Option.bind_some, blankNum_plain n]
    · simp [h0]
    · intro c hc
      have e : some ']' = some c := hc
      cases e
      decide
    · intro e
      have h2 : some '[' = some 'b' := congrArg List.head? e
      revert h2
      decide
  · rw [if_neg h0, if_pos rfl]
    congr 1
    omega

theorem tulipVar_eq (v : List Char × ℤ) : tulipVar v =
    "    ".toList ++ ("<item key=\"".toList ++ (v.1 ++ ("\" value=\"".toList ++ (domText v.2 ++ "\" />\n".toList)))) := by
  unfold tulipVar domText
  split
  · simp only [List.append_assoc]
    rfl
  · rfl

theorem tulipVal_eq (v : List Char × ℤ) : tulipVal v =
    "        ".toList ++ ("<item key=\"".toList ++ (v.1 ++ ("\" value=\"".toList ++ (printInt v.2 ++ "\" />\n".toList)))) := rfl

theorem domText_xplain (n : ℤ) : ∀ c ∈ domText n, XPlain c := by
  intro c hc
  unfold domText at hc
  split at hc
  · simp only [List.mem_append] at hc
    rcases hc with hc | hc | hc
    · revert c; decide
    · exact printInt_xplain n c hc
    · revert c; decide
  · revert c; decide

theorem Gives.vars {l : List (List Char × ℤ)} (h : ∀ v ∈ l, ∀ c ∈ v.1, XPlain c) :
    Gives (l.flatMap tulipVar) (l.map fun v => itemElem v.1 (domText v.2)) := by
  have := Gives.flatMap (f := tulipVar) (g := fun v => [itemElem v.1 (domText v.2)]) (l := l) (fun v hv => by
    rw [tulipVar_eq]
    exact Gives.item (by decide) (h v hv) (domText_xplain _))
  rwa [← List.map_eq_flatMap] at this

theorem Gives.vals {l : List (List Char × ℤ)} (h : ∀ v ∈ l, ∀ c ∈ v.1, XPlain c) :
    Gives (l.flatMap tulipVal) (l.map fun v => itemElem v.1 (printInt v.2)) := by
  have := Gives.flatMap (f := tulipVal) (g := fun v => [itemElem v.1 (printInt v.2)]) (l := l) (fun v hv => by
    rw [tulipVal_eq]
    exact Gives.item (by decide) (h v hv) (printInt_xplain _))
  rwa [← List.map_eq_flatMap] at this

theorem readVars {l : List (List Char × ℤ)} (h : ∀ v ∈ l, -1 ≤ v.2) :
    (l.map fun v => itemElem v.1 (domText v.2)).mapM (readItem readDomain) = some l := by
  induction l with
  | nil => rfl
  | cons v l ih =>
    rw [List.map_cons, List.mapM_cons, readItem_elem, readDomain_text (h v List.mem_cons_self),
      ih fun u hu => h u (List.mem_cons_of_mem _ hu)]
    rfl

theorem readVals (l : List (List Char × ℤ)) :
    (l.map fun v => itemElem v.1 (printInt v.2)).mapM (readItem oneNum) = some l := by
  induction l with
  | nil => rfl
  | cons v l ih =>
    rw [List.map_cons, List.mapM_cons, readItem_elem, oneNum_int, ih]
    rfl


/-! ## Nodes -/

/-- The element of a node. -/
def nodeElem (k : ℤ) (anno : List Char) (ts : List ℤ) (vals : List (List Char × ℤ)) : XNode :=
  .elem "node".toList [] [.elem "id".toList [] (textKids (printInt k)), .elem "anno".toList [] (textKids anno),
    .elem "child_list".toList [] (textKids (ts.flatMap sp)), .elem "state".toList [] (vals.map fun v => itemElem v.1 (printInt v.2))]

/-- The text of a node. -/
def nodeXml (k : ℤ) (anno : List Char) (ts : List ℤ) (vals : List (List Char × ℤ)) : List Char :=
  "    <node>\n      <id>".toList ++ (printInt k ++ ("</id><anno>".toList ++ (anno ++ ("</anno>\n      <child_list>".toList ++
    (ts.flatMap sp ++ ("</child_list>\n      <state>\n".toList ++ (vals.flatMap tulipVal ++
    "      </state>\n    </node>\n".toList)))))))

theorem Gives.node {k : ℤ} {anno : List Char} {ts : List ℤ} {vals : List (List Char × ℤ)} (ha : ∀ c ∈ anno, c ≠ '<' ∧ c ≠ '&')
    (hv : ∀ v ∈ vals, ∀ c ∈ v.1, XPlain c) : Gives (nodeXml k anno ts vals) [nodeElem k anno ts vals] := by
  have nums : ∀ c ∈ ts.flatMap sp, c ≠ '<' ∧ c ≠ '&' := by
    intro c hc
    obtain ⟨v, _, h⟩ := List.mem_flatMap.1 hc
    exact (sp_xplain v c h).2
  have g1 := Gives.leaf (t := "<id>".toList) (v := "</id>".toList) (n := "id".toList) (as := []) (u := printInt k)
    (fun _ _ => rfl) List.nodup_nil (fun c hc => (printInt_xplain k c hc).2) (fun _ _ => rfl)
  have g2 := Gives.leaf (t := "<anno>".toList) (v := "</anno>".toList) (n := "anno".toList) (as := []) (u := anno)
    (fun _ _ => rfl) List.nodup_nil ha (fun _ _ => rfl)
  have g3 := Gives.leaf (t := "<child_list>".toList) (v := "</child_list>".toList) (n := "child_list".toList) (as := [])
    (u := ts.flatMap sp) (fun _ _ => rfl) List.nodup_nil nums (fun _ _ => rfl)
  have b1 : Gives "\n      ".toList [] := Gives.blank (by decide)
  have b2 : Gives "\n".toList [] := Gives.blank (by decide)
  have b3 : Gives "      ".toList [] := Gives.blank (by decide)
  have b4 : Gives "\n    ".toList [] := Gives.blank (by decide)
  have b5 : Gives "    ".toList [] := Gives.blank (by decide)
  have g4 := Gives.elem (t := "<state>".toList) (v := "</state>".toList) (n := "state".toList) (as := [])
    (fun _ _ => rfl) List.nodup_nil (b2.append ((Gives.vals hv).append b3)) (fun _ _ => rfl)
  have g5 := Gives.elem (t := "<node>".toList) (v := "</node>".toList) (n := "node".toList) (as := [])
    (fun _ _ => rfl) List.nodup_nil
    (b1.append (g1.append (g2.append (b1.append (g3.append (b1.append (g4.append b4))))))) (fun _ _ => rfl)
  have g6 := b5.append (g5.append b2)
  have e : nodeXml k anno ts vals = "    ".toList ++ ("<node>".toList ++ ("\n      ".toList ++ (("<id>".toList ++ (printInt k ++ "</id>".toList)) ++
      (("<anno>".toList ++ (anno ++ "</anno>".toList)) ++ ("\n      ".toList ++
      (("<child_list>".toList ++ (ts.flatMap sp ++ "</child_list>".toList)) ++ ("\n      ".toList ++
      (("<state>".toList ++ (("\n".toList ++ (vals.flatMap tulipVal ++ "      ".toList)) ++ "</state>".toList)) ++ "\n    ".toList)))))) ++
      "</node>".toList) ++ "\n".toList) := by
    unfold nodeXml
    simp only [List.append_assoc]
    have e1 : ∀ x : List Char, "    <node>\n      <id>".toList ++ x =
        "    ".toList ++ ("<node>".toList ++ ("\n      ".toList ++ ("<id>".toList ++ x))) := fun _ => rfl
    have e2 : ∀ x : List Char, "</id><anno>".toList ++ x = "</id>".toList ++ ("<anno>".toList ++ x) := fun _ => rfl
    have e3 : ∀ x : List Char, "</anno>\n      <child_list>".toList ++ x =
        "</anno>".toList ++ ("\n      ".toList ++ ("<child_list>".toList ++ x)) := fun _ => rfl
    have e4 : ∀ x : List Char, "</child_list>\n      <state>\n".toList ++ x =
        "</child_list>".toList ++ ("\n      ".toList ++ ("<state>".toList ++ ("\n".toList ++ x))) := fun _ => rfl
    have e5 : "      </state>\n    </node>\n".toList =
        "      ".toList ++ ("</state>".toList ++ ("\n    ".toList ++ ("</node>".toList ++ "\n".toList))) := rfl
    rw [e1, e2, e3, e4, e5]
  rw [e]
  simpa [nodeElem] using g6

theorem readTulNode_elem {k : ℤ} {anno : List Char} {an : List ℤ} {ts : List ℤ} {vals : List (List Char × ℤ)}
    (h : kidNums (textKids anno) = some an) : readTulNode (nodeElem k anno ts vals) = some ⟨k, an, ts, vals⟩ := by
  unfold readTulNode nodeElem
  have e : ∀ ks : List XNode, kidsOf "node" (.elem "node".toList [] ks) = some ks := fun ks => by simp [kidsOf]
  have e1 : ∀ ks : List XNode, kidsOf "id" (.elem "id".toList [] ks) = some ks := fun ks => by simp [kidsOf]
  have e2 : ∀ ks : List XNode, kidsOf "anno" (.elem "anno".toList [] ks) = some ks := fun ks => by simp [kidsOf]
  have e3 : ∀ ks : List XNode, kidsOf "child_list" (.elem "child_list".toList [] ks) = some ks := fun ks => by simp [kidsOf]
  have e4 : ∀ ks : List XNode, kidsOf "state" (.elem "state".toList [] ks) = some ks := fun ks => by simp [kidsOf]
  rw [e]
  simp only [e1, e2, e3, e4, Option.bind_some, Option.bind_eq_bind, kidNums_id, h, kidNums_list, readVals]

/-- The annotation. -/
def annoText (n : ANode ℤ (List ℤ)) : List Char := if n.mode ≠ -1 ∧ n.rgrad ≠ -1 then printInt n.mode ++ sp n.rgrad else []

theorem annoText_nums (n : ANode ℤ (List ℤ)) :
    kidNums (textKids (annoText n)) = some (if n.mode = -1 ∨ n.rgrad = -1 then [] else [n.mode, n.rgrad]) := by
  unfold annoText
  by_cases h : n.mode ≠ -1 ∧ n.rgrad ≠ -1
  · rw [if_pos h, if_neg (by tauto), kidNums_anno]
  · rw [if_neg h, if_pos (by tauto)]
    rfl

theorem annoText_plain (n : ANode ℤ (List ℤ)) : ∀ c ∈ annoText n, c ≠ '<' ∧ c ≠ '&' := by
  intro c hc
  unfold annoText at hc
  split at hc
  · rcases List.mem_append.1 hc with hc | hc
    · exact (printInt_xplain _ c hc).2
    · exact (sp_xplain _ c hc).2
  · cases hc

/-- The values of a node. -/
def nodeVals (ev sv : VarList) (n : ANode ℤ (List ℤ)) : List (List Char × ℤ) := ((ev ++ sv).map Prod.fst).zip n.state

theorem zip_parts {ev sv : VarList} {st : List ℤ} (h : st.length = ev.length + sv.length) :
    (ev.map Prod.fst).zip (st.take ev.length) ++ (sv.map Prod.fst).zip ((st.drop ev.length).take sv.length) =
      ((ev ++ sv).map Prod.fst).zip st := by
  have e : (st.drop ev.length).take sv.length = st.drop ev.length := List.take_of_length_le (by rw [List.length_drop]; omega)
  rw [e, List.map_append]
  conv_rhs => rw [← List.take_append_drop ev.length st]
  rw [List.zip_append (by rw [List.length_map, List.length_take]; omega)]

theorem tulipNode_eq {l : Aut ℤ (List ℤ)} {ev sv : VarList} {k : ℕ} {n : ANode ℤ (List ℤ)}
    (h : n.state.length = ev.length + sv.length) :
    tulipNode l ev sv k n = some (nodeXml k (annoText n) (n.trans.map (indexInt l)) (nodeVals ev sv n)) := by
  unfold tulipNode nodeXml
  rw [if_neg (by omega), ← List.flatMap_append, zip_parts h]
  rfl

theorem nodeVals_names {ev sv : VarList} {n : ANode ℤ (List ℤ)} (hp : ∀ v ∈ ev ++ sv, ∀ c ∈ v.1, XPlain c) :
    ∀ v ∈ nodeVals ev sv n, ∀ c ∈ v.1, XPlain c := by
  intro v hv
  obtain ⟨u, hu, e⟩ := List.mem_map.1 (List.of_mem_zip (a := v.1) (b := v.2) hv).1
  rw [← e]
  exact hp u hu

theorem tulipLoop_reads (l : Aut ℤ (List ℤ)) {ev sv : VarList} (hp : ∀ v ∈ ev ++ sv, ∀ c ∈ v.1, XPlain c) :
    ∀ (r : Aut ℤ (List ℤ)) (k : ℕ), (∀ n ∈ r, n.state.length = ev.length + sv.length) →
      ∃ s ns, tulipLoop l ev sv k r = some s ∧ Gives s ns ∧ ns.mapM readTulNode =
        some ((r.zipIdx k).map fun n => ⟨n.2, if n.1.mode = -1 ∨ n.1.rgrad = -1 then [] else [n.1.mode, n.1.rgrad],
          n.1.trans.map (indexInt l), nodeVals ev sv n.1⟩) := by
  intro r
  induction r with
  | nil => intro k _; exact ⟨[], [], rfl, Gives.nil, rfl⟩
  | cons n r ih =>
    intro k h
    obtain ⟨s, ns, h1, h2, h3⟩ := ih (k + 1) fun n hn => h n (List.mem_cons_of_mem _ hn)
    refine ⟨nodeXml k (annoText n) (n.trans.map (indexInt l)) (nodeVals ev sv n) ++ s,
      nodeElem k (annoText n) (n.trans.map (indexInt l)) (nodeVals ev sv n) :: ns, ?_, ?_, ?_⟩
    · rw [tulipLoop, tulipNode_eq (h n List.mem_cons_self), h1]
    · exact (Gives.node (annoText_plain n) (nodeVals_names hp)).append h2
    · rw [List.mapM_cons, readTulNode_elem (annoText_nums n), h3]
      rfl

/-! ## Documents -/

theorem readXml_of {t : List Char} {x : XNode} (h : Gives t [x]) : readXml t = some x := by
  obtain ⟨w, hw, e⟩ := h [] [] [] [] rfl
  rw [List.append_nil, List.nil_append] at e
  unfold readXml
  rw [e, xToks, xBuild, if_pos hw]
  rfl

theorem tulipDump_reads {l : Aut ℤ (List ℤ)} {ev sv : VarList} (hp : ∀ v ∈ ev ++ sv, ∀ c ∈ v.1, XPlain c)
    (hd : ∀ v ∈ ev ++ sv, -1 ≤ v.2) (hl : ∀ n ∈ l, n.state.length = ev.length + sv.length) :
    ∃ s, tulipDump l ev sv = some s ∧ readTulip s = some ⟨ev, sv, (l.zipIdx.map fun n =>
      ⟨n.2, if n.1.mode = -1 ∨ n.1.rgrad = -1 then [] else [n.1.mode, n.1.rgrad],
          n.1.trans.map (indexInt l), nodeVals ev sv n.1⟩)⟩ := by
  obtain ⟨ns, xs, h1, h2, h3⟩ := tulipLoop_reads l hp l 0 hl
  have b1 : Gives "\n".toList [] := Gives.blank (by decide)
  have b2 : Gives "\n  ".toList [] := Gives.blank (by decide)
  have b3 : Gives "  ".toList [] := Gives.blank (by decide)
  have b4 : Gives "\n    ".toList [] := Gives.blank (by decide)
  have g1 := Gives.elem (t := "<env_vars>".toList) (v := "</env_vars>".toList) (n := "env_vars".toList) (as := [])
    (fun _ _ => rfl) List.nodup_nil (b1.append ((Gives.vars (l := ev) fun v hv => hp v (List.mem_append_left _ hv)).append b3)) (fun _ _ => rfl)
  have g2 := Gives.elem (t := "<sys_vars>".toList) (v := "</sys_vars>".toList) (n := "sys_vars".toList) (as := [])
    (fun _ _ => rfl) List.nodup_nil (b1.append ((Gives.vars (l := sv) fun v hv => hp v (List.mem_append_right _ hv)).append b3)) (fun _ _ => rfl)
  have s1 := Gives.elem (t := "<env_init>".toList) (v := "</env_init>".toList) (n := "env_init".toList) (as := [])
    (fun _ _ => rfl) List.nodup_nil Gives.nil (fun _ _ => rfl)
  have s2 := Gives.elem (t := "<env_safety>".toList) (v := "</env_safety>".toList) (n := "env_safety".toList) (as := [])
    (fun _ _ => rfl) List.nodup_nil Gives.nil (fun _ _ => rfl)
  have s3 := Gives.elem (t := "<env_prog>".toList) (v := "</env_prog>".toList) (n := "env_prog".toList) (as := [])
    (fun _ _ => rfl) List.nodup_nil Gives.nil (fun _ _ => rfl)
  have s4 := Gives.elem (t := "<sys_init>".toList) (v := "</sys_init>".toList) (n := "sys_init".toList) (as := [])
    (fun _ _ => rfl) List.nodup_nil Gives.nil (fun _ _ => rfl)
  have s5 := Gives.elem (t := "<sys_safety>".toList) (v := "</sys_safety>".toList) (n := "sys_safety".toList) (as := [])
    (fun _ _ => rfl) List.nodup_nil Gives.nil (fun _ _ => rfl)
  have s6 := Gives.elem (t := "<sys_prog>".toList) (v := "</sys_prog>".toList) (n := "sys_prog".toList) (as := [])
    (fun _ _ => rfl) List.nodup_nil Gives.nil (fun _ _ => rfl)
  have g3 := Gives.elem (t := "<spec>".toList) (v := "</spec>".toList) (n := "spec".toList) (as := [])
    (fun _ _ => rfl) List.nodup_nil (b4.append (s1.append (s2.append (s3.append (s4.append (s5.append (s6.append b2))))))) (fun _ _ => rfl)
  have g4 := Gives.elem (t := "<aut type=\"basic\">".toList) (v := "</aut>".toList) (n := "aut".toList)
    (as := [("type".toList, "basic".toList)])
    (fun _ _ => rfl) (by decide) (b1.append (h2.append b3)) (fun _ _ => rfl)
  have g5 := Gives.leaf (t := "<extra>".toList) (v := "</extra>".toList) (n := "extra".toList) (as := [])
    (u := "created using gr1c, version ".toList ++ gr1cVersion)
    (fun _ _ => rfl) List.nodup_nil (by decide) (fun _ _ => rfl)
  have o : TagOpens "<tulipcon xmlns=\"http://tulip-control.sourceforge.net/ns/1\" version=\"1\">".toList "tulipcon".toList
      [("xmlns".toList, "http://tulip-control.sourceforge.net/ns/1".toList), ("version".toList, "1".toList)] := by
    intro w r
    have p1 : ∀ x : List Char, xToks (.text w) ("<tulipcon xmlns=\"".toList ++ x) =
        .text w :: xToks (.val "tulipcon".toList [] "xmlns".toList []) x := fun _ => rfl
    have p2 : ∀ x : List Char, xToks (.val "tulipcon".toList [] "xmlns".toList "http://tulip-control.sourceforge.net/ns/1".toList)
        ("\" version=\"1\">".toList ++ x) = .opening "tulipcon".toList
          [("xmlns".toList, "http://tulip-control.sourceforge.net/ns/1".toList), ("version".toList, "1".toList)] :: xToks (.text []) x := fun _ => rfl
    have e : "<tulipcon xmlns=\"http://tulip-control.sourceforge.net/ns/1\" version=\"1\">".toList =
        "<tulipcon xmlns=\"".toList ++ ("http://tulip-control.sourceforge.net/ns/1".toList ++ "\" version=\"1\">".toList) := by decide +kernel
    rw [e, List.append_assoc, List.append_assoc, p1, xToks_val (by decide +kernel), List.nil_append, p2]
  have root := Gives.elem o (by decide) (b2.append (g1.append (b2.append (g2.append (b2.append (g3.append (b2.append
    (g4.append (b2.append (g5.append b1)))))))))) (show TagCloses "</tulipcon>".toList "tulipcon".toList from fun _ _ => rfl)
  have pi : Gives "<?xml version=\"1.0\" encoding=\"UTF-8\"?>".toList [] := by
    intro w r stack kids hw
    refine ⟨[], rfl, ?_⟩
    have p1 : xToks (.text w) ("<?xml version=\"1.0\" encoding=\"UTF-8\"?>".toList ++ r) = .text w :: xToks (.text []) r := by
      have e : "<?xml version=\"1.0\" encoding=\"UTF-8\"?>".toList = "<?xml version=\"1.0\" ".toList ++ "encoding=\"UTF-8\"?>".toList := by
        decide +kernel
      have q1 : ∀ x : List Char, xToks (.text w) ("<?xml version=\"1.0\" ".toList ++ x) = .text w :: xToks .pi x := fun _ => rfl
      have q2 : ∀ x : List Char, xToks .pi ("encoding=\"UTF-8\"?>".toList ++ x) = xToks (.text []) x := fun _ => rfl
      rw [e, List.append_assoc, q1, q2]
    rw [p1, xBuild, if_pos hw, List.append_nil]
  have doc := pi.append (b1.append (root.append b1))
  unfold tulipDump
  rw [h1, Option.map_some]
  refine ⟨_, rfl, ?_⟩
  have e1 : "<?xml version=\"1.0\" encoding=\"UTF-8\"?>\n".toList = "<?xml version=\"1.0\" encoding=\"UTF-8\"?>".toList ++ "\n".toList := by
    decide +kernel
  have e2 : "<tulipcon xmlns=\"http://tulip-control.sourceforge.net/ns/1\" version=\"1\">\n".toList =
      "<tulipcon xmlns=\"http://tulip-control.sourceforge.net/ns/1\" version=\"1\">".toList ++ "\n".toList := by decide +kernel
  have e3 : ∀ x : List Char, "\n".toList ++ ("  <env_vars>\n".toList ++ x) = "\n  ".toList ++ ("<env_vars>".toList ++ ("\n".toList ++ x)) := fun _ => rfl
  have e4 : ∀ x : List Char, "  </env_vars>\n".toList ++ ("  <sys_vars>\n".toList ++ x) =
      "  ".toList ++ ("</env_vars>".toList ++ ("\n  ".toList ++ ("<sys_vars>".toList ++ ("\n".toList ++ x)))) := fun _ => rfl
  have e5 : "  <spec>\n    <env_init></env_init><env_safety></env_safety><env_prog></env_prog>".toList =
      "  <spec>\n    ".toList ++ (("<env_init>".toList ++ "</env_init>".toList) ++ (("<env_safety>".toList ++ "</env_safety>".toList) ++
      ("<env_prog>".toList ++ "</env_prog>".toList))) := by decide +kernel
  have e6 : "<sys_init></sys_init><sys_safety></sys_safety><sys_prog></sys_prog>\n  </spec>\n".toList =
      ("<sys_init>".toList ++ "</sys_init>".toList) ++ (("<sys_safety>".toList ++ "</sys_safety>".toList) ++
      (("<sys_prog>".toList ++ "</sys_prog>".toList) ++ ("\n  ".toList ++ ("</spec>".toList ++ "\n".toList)))) := by decide +kernel
  have e7 : ∀ x : List Char, "  </sys_vars>\n".toList ++ ("  <spec>\n    ".toList ++ x) =
      "  ".toList ++ ("</sys_vars>".toList ++ ("\n  ".toList ++ ("<spec>".toList ++ ("\n    ".toList ++ x)))) := fun _ => rfl
  have e8 : ∀ x : List Char, "\n".toList ++ ("  <aut type=\"basic\">\n".toList ++ x) =
      "\n  ".toList ++ ("<aut type=\"basic\">".toList ++ ("\n".toList ++ x)) := fun _ => rfl
  have e9 : "  <extra>created using gr1c, version ".toList = "  ".toList ++ ("<extra>".toList ++ "created using gr1c, version ".toList) := by
    decide +kernel
  have e10 : ∀ x : List Char, "  </aut>\n".toList ++ ("  ".toList ++ x) = "  ".toList ++ ("</aut>".toList ++ ("\n  ".toList ++ x)) := fun _ => rfl
  have e11 : "</extra>\n</tulipcon>\n".toList = "</extra>".toList ++ ("\n".toList ++ ("</tulipcon>".toList ++ "\n".toList)) := by decide +kernel
  rw [e1, e2, e5, e6, e9, e11]
  simp only [List.append_assoc]
  simp only [e3, e4, e7, e8, e10]
  simp only [List.append_assoc, List.nil_append, List.append_nil] at doc
  unfold readTulip
  rw [readXml_of doc]
  have k0 : ∀ (as : List (List Char × List Char)) (ks : List XNode), kidsOf "tulipcon" (.elem "tulipcon".toList as ks) = some ks :=
    fun as ks => by simp [kidsOf]
  have k1 : ∀ ks : List XNode, kidsOf "env_vars" (.elem "env_vars".toList [] ks) = some ks := fun ks => by simp [kidsOf]
  have k2 : ∀ ks : List XNode, kidsOf "sys_vars" (.elem "sys_vars".toList [] ks) = some ks := fun ks => by simp [kidsOf]
  have k3 : ∀ ks : List XNode, kidsOf "spec" (.elem "spec".toList [] ks) = some ks := fun ks => by simp [kidsOf]
  have k4 : ∀ (as : List (List Char × List Char)) (ks : List XNode), kidsOf "aut" (.elem "aut".toList as ks) = some ks :=
    fun as ks => by simp [kidsOf]
  have k5 : ∀ ks : List XNode, kidsOf "extra" (.elem "extra".toList [] ks) = some ks := fun ks => by simp [kidsOf]
  rw [Option.bind_some, k0]
  simp only [List.cons_append, List.nil_append, k1, k2, k3, k4, k5, Option.bind_some, Option.bind_eq_bind, h3,
    readVars (l := ev) (fun v hv => hd v (List.mem_append_left _ hv)), readVars (l := sv) (fun v hv => hd v (List.mem_append_right _ hv))]

end Gr1c
