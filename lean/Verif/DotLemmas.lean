import Verif.Dot
import Verif.DotSpec
import Verif.JsonProps
import Verif.Render

/-!
# Lemmas on `dot_aut_dump` (C59)
-/

namespace Gr1c

/-! ## The loops over variables -/

/-- Text of a shown variable. -/
def dotItem (bin : Bool) (v : List Char × ℤ) : List Char := if bin then v.1 else v.1 ++ '=' :: printInt v.2

/-- Whether a variable is shown. -/
def dotShown (bin : Bool) (v : List Char × ℤ) : Bool := !bin || v.2 ≠ 0

theorem shownVals_eq (bin : Bool) (vs : List (List Char × ℤ)) :
    shownVals bin vs = (vs.filter (dotShown bin)).map (dotItem bin) := by
  cases bin
  · have e1 : dotItem false = fun v => v.1 ++ '=' :: printInt v.2 := by funext v; rfl
    have e2 : dotShown false = fun _ => true := by funext v; rfl
    rw [e1, e2]
    simp [shownVals]
  · have e1 : dotItem true = Prod.fst := by funext v; rfl
    have e2 : dotShown true = fun v => decide (v.2 ≠ 0) := by funext v; simp [dotShown]
    rw [e1, e2]
    simp [shownVals]

theorem lastNz_spec (vs : List (List Char × ℤ)) : ∀ k, k ≤ vs.length →
    (lastNz vs k = -1 ∧ ∀ v ∈ vs.take k, v.2 = 0) ∨
    ∃ pre v post, vs.take k = pre ++ v :: post ∧ lastNz vs k = pre.length ∧ v.2 ≠ 0 ∧ ∀ u ∈ post, u.2 = 0 := by
  intro k
  induction k with
  | zero => intro _; left; simp [lastNz]
  | succ k ih =>
    intro hk
    have hlt : k < vs.length := hk
    have e : vs[k]? = some vs[k] := List.getElem?_eq_getElem hlt
    have et : vs.take (k + 1) = vs.take k ++ [vs[k]] := by rw [List.take_succ, e]; rfl
    have e2 : lastNz vs (k + 1) = if (vs[k]).2 = 0 then lastNz vs k else k := by simp only [lastNz, e]
    by_cases hz : (vs[k]).2 = 0
    · rw [if_pos hz] at e2
      rcases ih (by omega) with ⟨h1, h2⟩ | ⟨pre, v, post, h1, h2, h3, h4⟩
      · left
        refine ⟨by rw [e2, h1], ?_⟩
        intro v hv
        rw [et] at hv
        rcases List.mem_append.1 hv with hv | hv
        · exact h2 v hv
        · rw [List.mem_singleton.1 hv]; exact hz
      · right
        refine ⟨pre, v, post ++ [vs[k]], by rw [et, h1]; simp, by rw [e2, h2], h3, ?_⟩
        intro u hu
        rcases List.mem_append.1 hu with hu | hu
        · exact h4 u hu
        · rw [List.mem_singleton.1 hu]; exact hz
    · rw [if_neg hz] at e2
      right
      exact ⟨vs.take k, vs[k], [], by rw [et], by rw [e2, List.length_take]; simp; omega, hz, by simp⟩

/-- What the computed last index is. -/
theorem dotLast_spec (bin : Bool) (vs : List (List Char × ℤ)) :
    (dotLast bin vs < 0 ∧ ∀ v ∈ vs, dotShown bin v = false) ∨
    ∃ pre v post, vs = pre ++ v :: post ∧ dotLast bin vs = pre.length ∧ dotShown bin v = true ∧
      ∀ u ∈ post, dotShown bin u = false := by
  cases bin with
  | true =>
    rcases lastNz_spec vs vs.length le_rfl with ⟨h1, h2⟩ | ⟨pre, v, post, h1, h2, h3, h4⟩
    · left
      rw [List.take_length] at h2
      exact ⟨by simp [dotLast, h1], fun v hv => by simp [dotShown, h2 v hv]⟩
    · right
      rw [List.take_length] at h1
      exact ⟨pre, v, post, h1, by simp [dotLast, h2], by simp [dotShown, h3], fun u hu => by simp [dotShown, h4 u hu]⟩
  | false =>
    rcases List.eq_nil_or_concat vs with rfl | ⟨pre, v, rfl⟩
    · left; simp [dotLast]
    · right; exact ⟨pre, v, [], by simp, by simp [dotLast], by simp [dotShown], by simp⟩

theorem dotVarLoop_step (bin : Bool) (last : ℤ) (tail : List Char) (j : ℤ) (v : List Char × ℤ) (r : List (List Char × ℤ)) :
    dotVarLoop bin last tail j (v :: r) =
      (if dotShown bin v then dotItem bin v ++ (if j = last then tail else ", ".toList) else []) ++
      dotVarLoop bin last tail (j + 1) r := by
  cases bin <;> by_cases h : v.2 = 0 <;> simp [dotVarLoop, dotShown, dotItem, h]

theorem dotVarLoop_none (bin : Bool) (last : ℤ) (tail : List Char) : ∀ (vs : List (List Char × ℤ)) (j : ℤ),
    (∀ v ∈ vs, dotShown bin v = false) → dotVarLoop bin last tail j vs = [] := by
  intro vs
  induction vs with
  | nil => intro _ _; rfl
  | cons v r ih =>
    intro j h
    rw [dotVarLoop_step, h v (List.mem_cons_self ..), ih _ fun u hu => h u (List.mem_cons_of_mem _ hu)]
    rfl

theorem dotVarLoop_some (bin : Bool) (tail : List Char) (v : List Char × ℤ) (post : List (List Char × ℤ))
    (hv : dotShown bin v = true) (hp : ∀ u ∈ post, dotShown bin u = false) :
    ∀ (pre : List (List Char × ℤ)) (j : ℤ),
    dotVarLoop bin (j + pre.length) tail j (pre ++ v :: post) =
      (shownVals bin pre).flatMap (· ++ ", ".toList) ++ (dotItem bin v ++ tail) := by
  intro pre
  induction pre with
  | nil =>
    intro j
    rw [List.nil_append, dotVarLoop_step, dotVarLoop_none bin _ _ post _ hp, hv]
    simp [shownVals_eq]
  | cons u pre ih =>
    intro j
    have e : j + ((u :: pre).length : ℤ) = (j + 1) + (pre.length : ℤ) := by push_cast [List.length_cons]; ring
    rw [List.cons_append, dotVarLoop_step, e, ih]
    have hne : ¬ j = j + 1 + (pre.length : ℤ) := by omega
    rw [if_neg hne]
    cases hu : dotShown bin u <;> simp [shownVals_eq, hu]

theorem inter_snoc (sep : List Char) (x : List Char) : ∀ l : List (List Char),
    sep.intercalate (l ++ [x]) = l.flatMap (· ++ sep) ++ x := by
  intro l
  induction l with
  | nil => simp [List.intercalate]
  | cons y l ih =>
    have : ∃ z zs, l ++ [x] = z :: zs := by cases l <;> simp
    obtain ⟨z, zs, e⟩ := this
    rw [List.cons_append, e, List.intercalate, List.intersperse_cons₂, List.flatten_cons, List.flatten_cons, ← List.intercalate,
      ← e, ih]
    simp

theorem shown_append (bin : Bool) (l l' : List (List Char × ℤ)) :
    shownVals bin (l ++ l') = shownVals bin l ++ shownVals bin l' := by simp [shownVals_eq]

theorem shown_none {bin : Bool} {l : List (List Char × ℤ)} (h : ∀ v ∈ l, dotShown bin v = false) : shownVals bin l = [] := by
  rw [shownVals_eq, List.filter_eq_nil_iff.2 fun v hv => by simp [h v hv]]
  rfl

/-- The loop writes the shown variables, separated by commas. -/
theorem dotVarLoop_shown (bin : Bool) (vs : List (List Char × ℤ)) (tail : List Char) :
    (dotLast bin vs < 0 ∧ shownVals bin vs = [] ∧ ∀ last, dotVarLoop bin last tail 0 vs = []) ∨
    (0 ≤ dotLast bin vs ∧ shownVals bin vs ≠ [] ∧
      dotVarLoop bin (dotLast bin vs) tail 0 vs = (", ".toList).intercalate (shownVals bin vs) ++ tail) := by
  rcases dotLast_spec bin vs with ⟨h1, h2⟩ | ⟨pre, v, post, h1, h2, h3, h4⟩
  · exact Or.inl ⟨h1, shown_none h2, fun _ => dotVarLoop_none _ _ _ _ _ h2⟩
  · right
    have e : shownVals bin vs = shownVals bin pre ++ [dotItem bin v] := by
      rw [h1, shown_append]
      congr 1
      rw [show v :: post = [v] ++ post from rfl, shown_append, shown_none h4]
      simp [shownVals_eq, h3]
    refine ⟨by rw [h2]; omega, by rw [e]; simp, ?_⟩
    rw [e, inter_snoc, h2]
    have := dotVarLoop_some bin tail v post h3 h4 pre 0
    rw [zero_add] at this
    rw [h1, this]
    simp

theorem inter_append (sep : List Char) {l l' : List (List Char)} (h : l ≠ []) (h' : l' ≠ []) :
    sep.intercalate (l ++ l') = sep.intercalate l ++ (sep ++ sep.intercalate l') := by
  obtain ⟨l0, x, rfl⟩ := List.eq_nil_or_concat l |>.resolve_left h
  obtain ⟨l1, y, rfl⟩ := List.eq_nil_or_concat l' |>.resolve_left h'
  simp only [List.concat_eq_append] at *
  rw [← List.append_assoc, inter_snoc, inter_snoc, inter_snoc]
  simp

theorem dotBody_eq (f : DotFlags) (e s : List (List Char × ℤ)) :
    dotBody f e s = braced (shownVals f.binary (if f.edgeInput then s else e ++ s)) := by
  have he := dotVarLoop_shown f.binary e (if 0 ≤ dotLast f.binary s then ", ".toList else [])
  have hs := dotVarLoop_shown f.binary s []
  unfold dotBody
  rcases he with ⟨e1, e2, e3⟩ | ⟨e1, e2, e3⟩ <;> rcases hs with ⟨s1, s2, s3⟩ | ⟨s1, s2, s3⟩
  · have hb : shownVals f.binary (if f.edgeInput then s else e ++ s) = [] := by
      split
      · exact s2
      · rw [shown_append, e2, s2]; rfl
    simp only [if_pos (And.intro e1 s1), hb, braced, if_true]
  · have hn : ¬ (dotLast f.binary e < 0 ∧ dotLast f.binary s < 0) := by omega
    have hn2 : ¬ (dotLast f.binary s < 0 ∧ f.edgeInput = true) := by omega
    have hb : shownVals f.binary (if f.edgeInput then s else e ++ s) = shownVals f.binary s := by
      split
      · rfl
      · rw [shown_append, e2]; rfl
    simp only [if_neg hn, if_neg hn2, hb, e3, s3, braced, if_neg s2]
    cases f.edgeInput <;> simp
  · have hn : ¬ (dotLast f.binary e < 0 ∧ dotLast f.binary s < 0) := by omega
    cases hf : f.edgeInput
    · have hn2 : ¬ (0 ≤ dotLast f.binary s) := by omega
      rw [if_neg hn2] at e3
      have hb : shownVals f.binary (e ++ s) = shownVals f.binary e := by rw [shown_append, s2]; simp
      simp only [if_neg hn, if_neg hn2, e3, s3, braced]
      simp only [Bool.false_eq_true, and_false, if_false, hb, if_neg e2]
      simp
    · simp only [if_neg hn, if_pos (And.intro s1 trivial), s2, braced, if_true]
      simp
  · have hn : ¬ (dotLast f.binary e < 0 ∧ dotLast f.binary s < 0) := by omega
    have hn2 : ¬ (dotLast f.binary s < 0 ∧ f.edgeInput = true) := by omega
    rw [if_pos s1] at e3
    cases hf : f.edgeInput
    · have hb : shownVals f.binary (e ++ s) ≠ [] := by rw [shown_append]; simp [e2]
      rw [hf] at hn2
      simp only [if_neg hn, if_neg hn2, if_pos s1, e3, s3, braced]
      simp only [Bool.false_eq_true, if_false, if_neg hb]
      rw [shown_append, inter_append _ e2 s2]
      simp
    · rw [hf] at hn2
      simp only [if_neg hn, if_neg hn2, s3, braced]
      simp only [if_true, if_neg s2]
      simp
      intro h
      omega

theorem zip_cut {α β : Type} (x y : List α) (st : List β) (h : st.length = x.length + y.length) :
    x.zip (st.take x.length) ++ y.zip ((st.drop x.length).take y.length) = (x ++ y).zip st := by
  conv_rhs => rw [← List.take_append_drop x.length st]
  rw [List.zip_append (by rw [List.length_take]; omega)]
  have e : (st.drop x.length).take y.length = st.drop x.length := List.take_of_length_le (by rw [List.length_drop]; omega)
  rw [e]

/-- Names of declared variables. -/
abbrev VarList.names (l : VarList) : List (List Char) := l.map Prod.fst

theorem zip_take_len {α β : Type} (x : List α) (st : List β) : x.zip (st.take x.length) = x.zip st := by
  induction x generalizing st with
  | nil => simp
  | cons a x ih =>
    cases st with
    | nil => simp
    | cons b st => simp [ih]

theorem dotNodeText_eq (f : DotFlags) (ev sv : VarList) (k : ℕ) (n : ANode ℤ (List ℤ))
    (h : n.state.length = ev.length + sv.length) :
    dotNodeText f ev sv k n = some ('"' :: (nodeLabel f.binary f.edgeInput f.attrib ev.names sv.names k n ++ ['"'])) := by
  have hk : printInt (k : ℤ) = decimal k := by simp [printInt]
  have hl : ¬ n.state.length < ev.length + sv.length := by omega
  have hb : shownVals f.binary (if f.edgeInput then dotSys ev sv n.state else dotEnv ev n.state ++ dotSys ev sv n.state) =
      shownVals f.binary (if f.edgeInput then sv.names.zip (n.state.drop ev.names.length) else (ev.names ++ sv.names).zip n.state) := by
    congr 1
    split
    · unfold dotSys
      have := zip_take_len sv.names (n.state.drop ev.length)
      rw [List.length_map] at this
      rw [this, List.length_map]
    · have := zip_cut ev.names sv.names n.state (by simpa using h)
      simp only [List.length_map] at this
      exact this
  unfold dotNodeText nodeLabel
  rw [if_neg hl, dotBody_eq, hb, hk]
  simp only [List.append_assoc, List.cons_append]
  cases f.attrib <;> simp

theorem dotEdgeLabel_eq (f : DotFlags) (ev : VarList) (n : ANode ℤ (List ℤ)) :
    dotEdgeLabel f ev n =
      if f.edgeInput then "[label=\"".toList ++ (braced (shownVals f.binary (ev.names.zip n.state)) ++ "\"]".toList) else [] := by
  unfold dotEdgeLabel
  split
  · have e : dotEnv ev n.state = ev.names.zip n.state := by
      unfold dotEnv
      have := zip_take_len ev.names n.state
      rw [List.length_map] at this
      exact this
    rw [e]
    rcases dotVarLoop_shown f.binary (ev.names.zip n.state) [] with ⟨e1, e2, -⟩ | ⟨e1, e2, e3⟩
    · rw [if_pos e1, e2]; simp [braced]
    · rw [if_neg (by omega), e3, braced, if_neg e2]; simp
  · rfl

/-! ## Reading -/

/-- Inside of a quoted string these characters stand for themselves. -/
def QSafe (t : List Char) : Prop := ∀ w r, dotToks (.quote w) (t ++ r) = dotToks (.quote (w ++ t)) r

theorem QSafe.nil : QSafe [] := by intro w r; simp

theorem QSafe.append {t u : List Char} (h : QSafe t) (h' : QSafe u) : QSafe (t ++ u) := by
  intro w r
  rw [List.append_assoc, h, h', List.append_assoc]

theorem QSafe.plain {t : List Char} (h : ∀ c ∈ t, c ≠ '"' ∧ c ≠ '\\') : QSafe t := by
  induction t with
  | nil => exact QSafe.nil
  | cons c t ih =>
    intro w r
    have hc := h c (List.mem_cons_self ..)
    rw [List.cons_append, dotToks]
    simp only [dotStep, if_neg hc.1, if_neg hc.2, List.nil_append]
    rw [ih (fun x hx => h x (List.mem_cons_of_mem _ hx))]
    simp

theorem QSafe.newline : QSafe "\\n".toList := by
  intro w r
  rfl

theorem QSafe.dig {t : List Char} (h : ∀ c ∈ t, isDig c = true ∨ c = '-') : QSafe t := by
  apply QSafe.plain
  intro c hc
  rcases h c hc with h | rfl
  · constructor <;> rintro rfl <;> revert h <;> decide
  · decide

theorem printInt_chars (v : ℤ) : ∀ c ∈ printInt v, isDig c = true ∨ c = '-' := by
  intro c hc
  unfold printInt at hc
  split at hc
  · rcases List.mem_cons.1 hc with rfl | hc
    · exact Or.inr rfl
    · exact Or.inl (decimal_digits _ c hc)
  · exact Or.inl (decimal_digits _ c hc)

theorem QSafe.inter {l : List (List Char)} (h : ∀ x ∈ l, QSafe x) : QSafe ((", ".toList).intercalate l) := by
  rcases List.eq_nil_or_concat l with rfl | ⟨l, x, rfl⟩
  · exact QSafe.nil
  · simp only [List.concat_eq_append] at h ⊢
    rw [inter_snoc]
    refine QSafe.append ?_ (h x (by simp))
    have h' : ∀ y ∈ l, QSafe y := fun y hy => h y (by simp [hy])
    clear h
    induction l with
    | nil => exact QSafe.nil
    | cons y l ih =>
      rw [List.flatMap_cons]
      exact ((h' y (List.mem_cons_self ..)).append (QSafe.plain (by decide))).append
        (ih fun z hz => h' z (List.mem_cons_of_mem _ hz))

theorem QSafe.braced {l : List (List Char)} (h : ∀ x ∈ l, QSafe x) : QSafe (braced l) := by
  unfold Gr1c.braced
  split
  · exact QSafe.plain (by decide)
  · exact QSafe.inter h

theorem QSafe.name {x : List Char} (h : ∀ c ∈ x, JPlain c) : QSafe x :=
  QSafe.plain fun c hc => ⟨(h c hc).1, (h c hc).2.1⟩

theorem QSafe.shown {bin : Bool} {vs : List (List Char × ℤ)} (h : ∀ v ∈ vs, ∀ c ∈ v.1, JPlain c) :
    ∀ x ∈ shownVals bin vs, QSafe x := by
  intro x hx
  rw [shownVals_eq] at hx
  obtain ⟨v, hv, rfl⟩ := List.mem_map.1 hx
  have h1 := QSafe.name (h v (List.mem_of_mem_filter hv))
  unfold dotItem
  split
  · exact h1
  · exact h1.append (show QSafe (['='] ++ printInt v.2) from (QSafe.plain (by decide)).append (QSafe.dig (printInt_chars _)))

theorem zip_names {names : List (List Char)} {st : List ℤ} (h : ∀ x ∈ names, ∀ c ∈ x, JPlain c) :
    ∀ v ∈ names.zip st, ∀ c ∈ v.1, JPlain c := fun v hv => h v.1 (List.of_mem_zip hv).1

theorem QSafe.label {bin input attrib : Bool} {en sn : List (List Char)} (h : ∀ x ∈ en ++ sn, ∀ c ∈ x, JPlain c) (k : ℕ)
    (n : ANode ℤ (List ℤ)) : QSafe (nodeLabel bin input attrib en sn k n) := by
  unfold nodeLabel
  refine ((QSafe.dig fun c hc => Or.inl (decimal_digits k c hc)).append ?_ |>.append ?_).append (QSafe.braced (QSafe.shown ?_))
  · exact (QSafe.plain (t := [';']) (by decide)).append QSafe.newline
  · split
    · refine ((((QSafe.plain (by decide)).append (QSafe.dig (printInt_chars _))).append (QSafe.plain (by decide))).append
        (QSafe.dig (printInt_chars _))).append ?_
      exact (QSafe.plain (t := [')']) (by decide)).append QSafe.newline
    · exact QSafe.nil
  · split
    · exact zip_names fun x hx => h x (by simp [hx])
    · exact zip_names h

theorem toks_quoted {t : List Char} (h : QSafe t) (r : List Char) :
    dotToks .start ('"' :: (t ++ '"' :: r)) = .quoted t :: dotToks .start r := by
  have e : dotToks .start ('"' :: (t ++ '"' :: r)) = dotToks (.quote []) (t ++ '"' :: r) := rfl
  rw [e, h]
  rfl

/-! ## Statements -/

/-- The tokens of a statement. -/
def stmtToks : DStmt → List DTok
  | .node x _ => [.quoted x]
  | .edge x y as => .quoted x :: .arrow :: .quoted y ::
      as.flatMap fun a => [.lbrack, .word a.1, .eq, .quoted a.2, .rbrack]

/-- Edges of a node with the text `x`. -/
def edgeStmts (f : DotFlags) (ev sv : VarList) (l : Aut ℤ (List ℤ)) (x : List Char) (ts : List ℕ) : List DStmt :=
  ts.flatMap fun t => (l.zipIdx.filter fun m => m.1.id = t).map fun m =>
    .edge x (nodeLabel f.binary f.edgeInput f.attrib ev.names sv.names m.2 m.1) (edgeAttrs f.binary f.edgeInput ev.names m.1)

/-- Statements for nodes. -/
def nodeStmts (f : DotFlags) (ev sv : VarList) (l : Aut ℤ (List ℤ)) (n : ANode ℤ (List ℤ) × ℕ) : List DStmt :=
  let x := nodeLabel f.binary f.edgeInput f.attrib ev.names sv.names n.2 n.1
  .node x [] :: ((if n.1.initial then [.edge [] x []] else []) ++ edgeStmts f ev sv l x n.1.trans)

theorem target_found {l : Aut ℤ (List ℤ)} {t : ℕ} (hn : (l.map ANode.id).Nodup) (ht : ∃ m ∈ l, m.id = t) :
    ∃ m i, l.find? (fun m => m.id = t) = some m ∧ indexInt l t = (i : ℕ) ∧ l[i]? = some m ∧
      l.zipIdx.filter (fun m => m.1.id = t) = [(m, i)] := by
  have key : ∀ (l : Aut ℤ (List ℤ)) (c : ℕ), (l.map ANode.id).Nodup → (∃ m ∈ l, m.id = t) →
      ∃ m i, l.find? (fun m => m.id = t) = some m ∧ anodeIndexFrom c l t = some (c + i) ∧ l[i]? = some m ∧
        (l.zipIdx c).filter (fun m => m.1.id = t) = [(m, c + i)] := by
    intro l
    induction l with
    | nil => rintro _ _ ⟨m, hm, _⟩; cases hm
    | cons x l ih =>
      intro c hn ht
      simp only [List.map_cons, List.nodup_cons] at hn
      by_cases hx : x.id = t
      · refine ⟨x, 0, by simp [hx], by simp [anodeIndexFrom, hx], rfl, ?_⟩
        rw [List.zipIdx_cons, List.filter_cons, if_pos (by simpa using hx)]
        have : (l.zipIdx (c + 1)).filter (fun m => m.1.id = t) = [] := by
          rw [List.filter_eq_nil_iff]
          intro m hm
          have hml : m.1 ∈ l := by
            have := List.mem_zipIdx hm
            rw [this.2.2]
            exact List.getElem_mem _
          have : m.1.id ≠ t := by
            rintro e
            exact hn.1 (hx ▸ e ▸ List.mem_map_of_mem hml)
          simpa using this
        rw [this]
        rfl
      · have : ∃ m ∈ l, m.id = t := by
          obtain ⟨m, hm, e⟩ := ht
          rcases List.mem_cons.1 hm with rfl | hm
          · exact absurd e hx
          · exact ⟨m, hm, e⟩
        obtain ⟨m, i, h1, h2, h3, h4⟩ := ih (c + 1) hn.2 this
        refine ⟨m, i + 1, by simp [hx, h1], ?_, by simpa using h3, ?_⟩
        · rw [anodeIndexFrom, if_neg hx, h2]
          congr 1
          omega
        · rw [List.zipIdx_cons, List.filter_cons, if_neg (by simpa using hx), h4]
          congr 2
          omega
  obtain ⟨m, i, h1, h2, h3, h4⟩ := key l 0 hn ht
  rw [Nat.zero_add] at h2 h4
  exact ⟨m, i, h1, by simp [indexInt, anodeIndex, h2], h3, h4⟩

/-- What the list of nodes satisfies. -/
structure DotOk (ev sv : VarList) (l : Aut ℤ (List ℤ)) : Prop where
  nodup : (l.map ANode.id).Nodup
  closed : ∀ n ∈ l, ∀ t ∈ n.trans, ∃ m ∈ l, m.id = t
  length : ∀ n ∈ l, n.state.length = ev.length + sv.length
  plain : ∀ x ∈ ev.names ++ sv.names, ∀ c ∈ x, JPlain c

theorem toks_label {f : DotFlags} {ev sv : VarList} {l : Aut ℤ (List ℤ)} (h : DotOk ev sv l) (n : ANode ℤ (List ℤ)) (r : List Char) :
    dotToks .start (dotEdgeLabel f ev n ++ '\n' :: r) =
      (edgeAttrs f.binary f.edgeInput ev.names n).flatMap (fun a => [.lbrack, .word a.1, .eq, .quoted a.2, .rbrack]) ++
      dotToks .start r := by
  rw [dotEdgeLabel_eq]
  unfold edgeAttrs
  split
  · have hq : QSafe (braced (shownVals f.binary (ev.names.zip n.state))) :=
      QSafe.braced (QSafe.shown (zip_names fun x hx => h.plain x (List.mem_append_left _ hx)))
    generalize braced (shownVals f.binary (ev.names.zip n.state)) = b at hq ⊢
    have e : ("[label=\"".toList ++ (b ++ "\"]".toList)) ++ '\n' :: r = "[label=\"".toList ++ (b ++ '"' :: ']' :: '\n' :: r) := by
      simp
    have e2 : ∀ x, dotToks .start ("[label=\"".toList ++ x) =
        .lbrack :: .word "label".toList :: .eq :: dotToks .start ('"' :: x) := fun x => rfl
    rw [e, e2, toks_quoted hq]
    rfl
  · rfl

theorem dotEdges_toks {f : DotFlags} {ev sv : VarList} {l : Aut ℤ (List ℤ)} (h : DotOk ev sv l) {x : List Char} (hx : QSafe x) :
    ∀ ts : List ℕ, (∀ t ∈ ts, ∃ m ∈ l, m.id = t) → ∃ s, dotEdges f ev sv l ('"' :: (x ++ ['"'])) ts = some s ∧
      ∀ r, dotToks .start (s ++ r) = (edgeStmts f ev sv l x ts).flatMap stmtToks ++ dotToks .start r := by
  intro ts
  induction ts with
  | nil => intro _; exact ⟨[], rfl, fun _ => rfl⟩
  | cons t ts ih =>
    intro ht
    obtain ⟨s, e1, e2⟩ := ih fun t ht' => ht t (List.mem_cons_of_mem _ ht')
    obtain ⟨m, i, k1, k2, k3, k4⟩ := target_found h.nodup (ht t (List.mem_cons_self ..))
    have hm : m ∈ l := List.mem_of_getElem? k3
    have hq := QSafe.label (bin := f.binary) (input := f.edgeInput) (attrib := f.attrib) h.plain i m
    refine ⟨"    ".toList ++ (('"' :: (x ++ ['"'])) ++ (" -> ".toList ++
      (('"' :: (nodeLabel f.binary f.edgeInput f.attrib ev.names sv.names i m ++ ['"'])) ++ (dotEdgeLabel f ev m ++ '\n' :: s)))), ?_, ?_⟩
    · rw [dotEdges, k1]
      simp only [k2, dotNodeText_eq f ev sv i m (h.length m hm), e1]
    · intro r
      have he : edgeStmts f ev sv l x (t :: ts) =
          .edge x (nodeLabel f.binary f.edgeInput f.attrib ev.names sv.names i m) (edgeAttrs f.binary f.edgeInput ev.names m) ::
          edgeStmts f ev sv l x ts := by
        unfold edgeStmts
        rw [List.flatMap_cons, k4]
        rfl
      rw [he, List.flatMap_cons]
      generalize nodeLabel f.binary f.edgeInput f.attrib ev.names sv.names i m = u at hq ⊢
      have e3 : ("    ".toList ++ (('"' :: (x ++ ['"'])) ++ (" -> ".toList ++ (('"' :: (u ++ ['"'])) ++ (dotEdgeLabel f ev m ++ '\n' :: s))))) ++ r =
          "    ".toList ++ ('"' :: (x ++ '"' :: (" -> ".toList ++ ('"' :: (u ++ '"' :: (dotEdgeLabel f ev m ++ '\n' :: (s ++ r))))))) := by
        simp
      have e4 : ∀ y, dotToks .start ("    ".toList ++ y) = dotToks .start y := fun _ => rfl
      have e5 : ∀ y, dotToks .start (" -> ".toList ++ y) = .arrow :: dotToks .start y := fun _ => rfl
      rw [e3, e4, toks_quoted hx, e5, toks_quoted hq, toks_label h, e2]
      simp [stmtToks]

/-- All texts of nodes fit into the buffer. -/
def Short (f : DotFlags) (ev sv : VarList) (l : List (ANode ℤ (List ℤ) × ℕ)) : Prop :=
  ∀ n ∈ l, (nodeLabel f.binary f.edgeInput f.attrib ev.names sv.names n.2 n.1).length < 4094

theorem dotLoop_toks {f : DotFlags} {ev sv : VarList} {l : Aut ℤ (List ℤ)} (h : DotOk ev sv l) :
    ∀ (r : Aut ℤ (List ℤ)) (k : ℕ), (∀ n ∈ r, n ∈ l) → ∃ c s, dotLoop f ev sv l k r = .done c s ∧
      (Short f ev sv (r.zipIdx k) → c = 0 ∧
        dotToks .start s = ((r.zipIdx k).flatMap (nodeStmts f ev sv l)).flatMap stmtToks ++ [.rbrace]) ∧
      (¬ Short f ev sv (r.zipIdx k) → c = -1 ∧ ∃ ss : List DStmt, dotToks .start s = ss.flatMap stmtToks) := by
  intro r
  induction r with
  | nil =>
    intro k _
    exact ⟨0, _, rfl, fun _ => ⟨rfl, rfl⟩, fun hs => absurd (fun n hn => by simp at hn) hs⟩
  | cons n r ih =>
    intro k hr
    obtain ⟨c, s, e1, e2, e3⟩ := ih (k + 1) fun m hm => hr m (List.mem_cons_of_mem _ hm)
    have hn := hr n (List.mem_cons_self ..)
    have hq := QSafe.label (bin := f.binary) (input := f.edgeInput) (attrib := f.attrib) h.plain k n
    have ht := dotNodeText_eq f ev sv k n (h.length n hn)
    have hsh : Short f ev sv ((n :: r).zipIdx k) ↔
        (nodeLabel f.binary f.edgeInput f.attrib ev.names sv.names k n).length < 4094 ∧ Short f ev sv (r.zipIdx (k + 1)) := by
      unfold Short
      rw [List.zipIdx_cons]
      simp
    obtain ⟨es, g1, g2⟩ := dotEdges_toks (f := f) h hq n.trans (h.closed n hn)
    have hstm : ((n :: r).zipIdx k).flatMap (nodeStmts f ev sv l) =
        nodeStmts f ev sv l (n, k) ++ (r.zipIdx (k + 1)).flatMap (nodeStmts f ev sv l) := by
      rw [List.zipIdx_cons, List.flatMap_cons]
    have hnst : nodeStmts f ev sv l (n, k) = .node (nodeLabel f.binary f.edgeInput f.attrib ev.names sv.names k n) [] ::
        ((if n.initial then [.edge [] (nodeLabel f.binary f.edgeInput f.attrib ev.names sv.names k n) []] else []) ++
          edgeStmts f ev sv l (nodeLabel f.binary f.edgeInput f.attrib ev.names sv.names k n) n.trans) := rfl
    rw [hstm, hnst, hsh]
    clear hstm hnst hsh
    generalize nodeLabel f.binary f.edgeInput f.attrib ev.names sv.names k n = x at hq ht g1 g2 ⊢
    by_cases hx : x.length < 4094
    · have hx' : ¬ 4096 ≤ ('"' :: (x ++ ['"'])).length := by simp; omega
      have etext : ∀ y, dotToks .start ("    ".toList ++ (('"' :: (x ++ ['"'])) ++ '\n' ::
          ((if n.initial then "    \"\" -> ".toList ++ (('"' :: (x ++ ['"'])) ++ ['\n']) else []) ++ (es ++ y)))) =
          stmtToks (.node x []) ++ ((if n.initial then [DStmt.edge [] x []] else []) ++ edgeStmts f ev sv l x n.trans).flatMap stmtToks ++
            dotToks .start y := by
        intro y
        have e4 : ∀ y, dotToks .start ("    ".toList ++ y) = dotToks .start y := fun _ => rfl
        have e5 : ∀ y, dotToks .start ('\n' :: y) = dotToks .start y := fun _ => rfl
        have e6 : ∀ y, dotToks .start ("    \"\" -> ".toList ++ y) = .quoted [] :: .arrow :: dotToks .start y := fun _ => rfl
        have e7 : ∀ z, ('"' :: (x ++ ['"'])) ++ z = '"' :: (x ++ '"' :: z) := by intro z; simp
        rw [e4, e7, toks_quoted hq, e5]
        cases n.initial
        · simp only [Bool.false_eq_true, if_false, List.nil_append]
          rw [g2]
          simp [stmtToks]
        · simp only [if_true, List.append_assoc]
          rw [e6, e7, toks_quoted hq]
          show _ :: _ :: _ :: _ :: dotToks .start ('\n' :: (es ++ y)) = _
          rw [e5, g2]
          simp [stmtToks]
      refine ⟨c, "    ".toList ++ (('"' :: (x ++ ['"'])) ++ '\n' ::
          ((if n.initial then "    \"\" -> ".toList ++ (('"' :: (x ++ ['"'])) ++ ['\n']) else []) ++ (es ++ s))), ?_, ?_, ?_⟩
      · rw [dotLoop, ht]
        simp only [if_neg hx', g1, e1]
      · intro hs
        obtain ⟨hc, e2'⟩ := e2 hs.2
        refine ⟨hc, ?_⟩
        rw [etext, e2']
        simp
      · intro hs
        obtain ⟨hc, ss, e3'⟩ := e3 fun h => hs ⟨hx, h⟩
        refine ⟨hc, .node x [] :: (((if n.initial then [DStmt.edge [] x []] else []) ++ edgeStmts f ev sv l x n.trans) ++ ss), ?_⟩
        rw [etext, e3', List.flatMap_cons, List.flatMap_append (ys := ss)]
        simp only [List.append_assoc]
    · refine ⟨-1, [], ?_, fun hs => absurd hs.1 hx, fun _ => ⟨rfl, [], rfl⟩⟩
      rw [dotLoop, ht]
      simp only [if_pos (show 4096 ≤ ('"' :: (x ++ ['"'])).length by simp; omega)]

/-- Statements of the kind that is written. -/
def SimpleStmt : DStmt → Prop
  | .node _ as => as = []
  | .edge _ _ as => as = [] ∨ ∃ v, as = [("label".toList, v)]

theorem stmts_head (ss : List DStmt) : ∃ t r, ss.flatMap stmtToks ++ [.rbrace] = t :: r ∧ t ≠ .lbrack ∧ t ≠ .arrow := by
  cases ss with
  | nil => exact ⟨_, _, rfl, by decide, by decide⟩
  | cons s ss =>
    cases s with
    | node x as => exact ⟨.quoted x, ss.flatMap stmtToks ++ [.rbrace], rfl, by simp, by simp⟩
    | edge x y as => exact ⟨.quoted x, _, rfl, by simp, by simp⟩

theorem readAttrs_skip {t : DTok} (h : t ≠ .lbrack) (r : List DTok) : readAttrs (t :: r) = some ([], t :: r) := by
  cases t with
  | lbrack => exact absurd rfl h
  | _ => rfl

theorem readStmts_node {n : ℕ} {x : List Char} {t : DTok} {r : List DTok} (h : t ≠ .lbrack) (h' : t ≠ .arrow) :
    readStmts (n + 1) (.quoted x :: t :: r) = (readStmts n (t :: r)).map (DStmt.node x [] :: ·) := by
  have hs := readAttrs_skip h r
  cases t <;> first | exact absurd rfl h | exact absurd rfl h' | simp [readStmts, DTok.name?, hs]

theorem readStmts_stmts : ∀ (ss : List DStmt) (n : ℕ), (∀ s ∈ ss, SimpleStmt s) → ss.length < n →
    readStmts n (ss.flatMap stmtToks ++ [.rbrace]) = some ss := by
  intro ss
  induction ss with
  | nil =>
    intro n _ hn
    obtain ⟨n, rfl⟩ : ∃ m, n = m + 1 := ⟨n - 1, by simp at hn; omega⟩
    simp [readStmts]
  | cons s ss ih =>
    intro n hs hn
    obtain ⟨n, rfl⟩ : ∃ m, n = m + 1 := ⟨n - 1, by simp at hn; omega⟩
    have ih := ih n (fun s h => hs s (List.mem_cons_of_mem _ h)) (by simp at hn; omega)
    obtain ⟨t, r, e, h1, h2⟩ := stmts_head ss
    have h0 := hs s (List.mem_cons_self ..)
    rw [List.flatMap_cons, List.append_assoc, e]
    rw [e] at ih
    cases s with
    | node x as =>
      have h0 : as = [] := h0
      subst h0
      show readStmts (n + 1) (.quoted x :: t :: r) = _
      rw [readStmts_node h1 h2, ih]
      rfl
    | edge x y as =>
      rcases h0 with rfl | ⟨v, rfl⟩
      · show readStmts (n + 1) (.quoted x :: .arrow :: .quoted y :: t :: r) = _
        simp [readStmts, DTok.name?, readAttrs_skip h1, ih]
      · show readStmts (n + 1) (.quoted x :: .arrow :: .quoted y :: .lbrack :: .word "label".toList :: .eq :: .quoted v :: .rbrack :: t :: r) = _
        have e1 : (DTok.word "label".toList).name? = some "label".toList := by decide
        have e2 : ∀ z, readAttrs (.lbrack :: .word "label".toList :: .eq :: .quoted v :: .rbrack :: z) = some ([("label".toList, v)], z) := by
          intro z
          simp only [readAttrs]
          rw [e1]
          rfl
        have nq : ∀ w, (DTok.quoted w).name? = some w := fun _ => rfl
        simp only [readStmts, nq, e2, ih]
        simp

theorem readAttrs_sub {ts r : List DTok} {as : List (List Char × List Char)} (h : readAttrs ts = some (as, r)) : r ⊆ ts := by
  unfold readAttrs at h
  split at h
  · split at h
    · cases h
      intro x hx
      simp [hx]
    · cases h
  · cases h
  · cases h
    exact fun x hx => hx

theorem readStmts_rbrace : ∀ (n : ℕ) (ts : List DTok) (g : List DStmt), readStmts n ts = some g → .rbrace ∈ ts := by
  intro n
  induction n with
  | zero => intro ts g h; cases h
  | succ n ih =>
    intro ts g h
    cases ts with
    | nil => simp [readStmts] at h
    | cons t r =>
      simp only [readStmts] at h
      split_ifs at h with h0 h1
      · rw [h0]; simp
      · exact List.mem_cons_of_mem _ (ih _ _ h)
      · split at h
        · cases h
        · split at h
          · split at h
            · rename_i as r'' hy he
              cases hh : readStmts n r'' with
              | none => rw [hh] at h; cases h
              | some g' =>
                have := readAttrs_sub he (ih _ _ hh)
                simp [this]
            · cases h
          · split at h
            · rename_i as r'' he
              cases hh : readStmts n r'' with
              | none => rw [hh] at h; cases h
              | some g' =>
                exact List.mem_cons_of_mem _ (readAttrs_sub he (ih _ _ hh))
            · cases h

end Gr1c
