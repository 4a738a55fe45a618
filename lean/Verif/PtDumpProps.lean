import Verif.PtDump
import Verif.TreeDotProps
import Verif.SupportProps
import Verif.MainSpin
import Verif.RgProps

/-!
# C70: what the option `-p` writes
-/

namespace Gr1c

/-! ## Specification -/

/-- A number with at least five digits. -/
def Numbered (k : ℕ) (d : List Char) : Prop := ∃ z, d = List.replicate z '0' ++ decimal k ∧ d.length = max 5 (decimal k).length

/-- The parts of a specification, and the names of their files. The goal of `gr1c-rg` is one. -/
inductive PartFile (rg : Bool) (sp : FSpec) : List Char → PTree → Prop
  | einit : PartFile rg sp "env_init_ptree.dot".toList (optTree sp.einit)
  | sinit : PartFile rg sp "sys_init_ptree.dot".toList (optTree sp.sinit)
  | etrans (k : ℕ) (f : Fm) (d : List Char) (h : sp.etrans[k]? = some f) (hd : Numbered k d) :
      PartFile rg sp ("env_trans".toList ++ (d ++ "_ptree.dot".toList)) f.toTree
  | strans (k : ℕ) (f : Fm) (d : List Char) (h : sp.strans[k]? = some f) (hd : Numbered k d) :
      PartFile rg sp ("sys_trans".toList ++ (d ++ "_ptree.dot".toList)) f.toTree
  | egoal (k : ℕ) (f : Fm) (d : List Char) (h : sp.egoals[k]? = some f) (hd : Numbered k d) :
      PartFile rg sp ("env_goal".toList ++ (d ++ "_ptree.dot".toList)) f.toTree
  | sgoal (hrg : rg = false) (k : ℕ) (f : Fm) (d : List Char) (h : sp.sgoals[k]? = some f) (hd : Numbered k d) :
      PartFile rg sp ("sys_goal".toList ++ (d ++ "_ptree.dot".toList)) f.toTree
  | goal (hrg : rg = true) (f : Fm) (h : sp.sgoals = [f]) : PartFile rg sp "sys_goal_ptree.dot".toList f.toTree

/-- Every part is drawn in a file of its own, and there are no other files. -/
structure DumpsParts (rg : Bool) (sp : FSpec) (files : List (List Char × List Char)) : Prop where
  own : (files.map Prod.fst).Nodup
  only : ∀ n c, (n, c) ∈ files → ∃ t, PartFile rg sp n t
  each : ∀ n t, PartFile rg sp n t → ∃ c g addr name, (n, c) ∈ files ∧ readDot c = some g ∧ DrawsTree addr t g name ∧
    ∀ p q, subAt t p ≠ .nil → subAt t q ≠ .nil → name p = name q → p = q

/-- A variable on the screen: name, index and domain. Boolean ones are those with the value `b`. -/
def varShown (b : ℤ) (x : (Name × ℤ) × ℕ) : List Char :=
  x.1.1 ++ " (".toList ++ decimal x.2 ++ "; ".toList ++
    (if x.1.2 = b then "bool".toList else "{0..".toList ++ printInt x.1.2 ++ "}".toList) ++ ")".toList

/-- Variables on the screen. -/
def varsShown (b : ℤ) (l : List ((Name × ℤ) × ℕ)) : List Char :=
  if l = [] then "(none)".toList else List.intercalate ", ".toList (l.map (varShown b))

/-- The variables, each with its index in the states: environment variables first. -/
def listingBy (b : ℤ) (ev sv : Decls) : List Char :=
  let l := (ev ++ sv).zipIdx
  "Environment variables (indices; domains): ".toList ++ varsShown b (l.take ev.length) ++
    "\n\nSystem variables (indices; domains): ".toList ++ varsShown b (l.drop ev.length) ++ "\n\n".toList

/-- The same, where Boolean variables are those that are declared as such. -/
def listing (ev sv : Decls) : List Char := listingBy (-1) ev sv

/-- The lines of C68 for a specification. -/
def formulaLines (ev sv : Decls) (sp : FSpec) : List Char :=
  (specLines (ev.map Prod.fst) (sv.map Prod.fst) (sp.einit.map fun f => printFormula false f.toTree)
    (sp.sinit.map fun f => printFormula false f.toTree) (sp.etrans.map fun f => printFormula false f.toTree)
    (sp.strans.map fun f => printFormula false f.toTree) (sp.egoals.map fun f => printFormula false f.toTree)
    (sp.sgoals.map fun f => printFormula false f.toTree)).flatMap (· ++ ['\n'])

/-- Nodes of the same tree have different addresses. -/
def NodesApart (addr : ℕ → List Bool → ℕ) (calls : List (List Char × PTree)) : Prop :=
  ∀ i x, calls[i]? = some x → ∀ p q, subAt x.2 p ≠ .nil → subAt x.2 q ≠ .nil → addr i p = addr i q → p = q

/-! ## Proofs -/

theorem numbered_iff {k : ℕ} {d : List Char} : Numbered k d ↔ d = padFive k := by
  unfold Numbered padFive
  constructor
  · rintro ⟨z, rfl, h⟩
    rw [List.length_append, List.length_replicate] at h
    rw [show z = 5 - (decimal k).length by omega]
  · rintro rfl
    refine ⟨_, rfl, ?_⟩
    rw [List.length_append, List.length_replicate]
    omega

theorem padFive_inj {i j : ℕ} (h : padFive i = padFive j) : i = j := by
  have v : ∀ k, Nat.ofDigits 10 ((padFive k).reverse.map digitVal) = k := by
    intro k
    unfold padFive
    rw [List.reverse_append, List.map_append, Nat.ofDigits_append, decimal_value, List.reverse_replicate, List.map_replicate,
      show digitVal '0' = 0 from rfl, Nat.ofDigits_replicate_zero, Nat.mul_zero, Nat.add_zero]
  rw [← v i, h, v]

theorem dumpName_inj {sec : List Char} {i j : ℕ} (h : dumpName sec i = dumpName sec j) : i = j := by
  exact padFive_inj (List.append_cancel_right (List.append_cancel_left h))

theorem secFiles_names (sec : List Char) (ts : List PTree) : ∀ i, (secFiles sec i ts).map Prod.fst = (List.range' i ts.length).map (dumpName sec) := by
  induction ts with
  | nil => intro i; rfl
  | cons t ts ih => intro i; simp [secFiles, ih, List.range'_succ]

theorem mem_secFiles (sec : List Char) (ts : List PTree) : ∀ i x, x ∈ secFiles sec i ts ↔ ∃ k t, ts[k]? = some t ∧ x = (dumpName sec (i + k), t) := by
  induction ts with
  | nil => intro i x; simp [secFiles]
  | cons t ts ih =>
    intro i x
    rw [secFiles, List.mem_cons, ih]
    constructor
    · rintro (rfl | ⟨k, u, h, rfl⟩)
      · exact ⟨0, t, rfl, rfl⟩
      · exact ⟨k + 1, u, h, by rw [Nat.add_right_comm, Nat.add_assoc]⟩
    · rintro ⟨k, u, h, rfl⟩
      cases k with
      | zero => left; rw [show u = t by simpa using h.symm]; rfl
      | succ k => right; exact ⟨k, u, by simpa using h, by rw [Nat.add_right_comm, Nat.add_assoc]⟩

theorem secFiles_nodup (sec : List Char) (ts : List PTree) (i : ℕ) : ((secFiles sec i ts).map Prod.fst).Nodup := by
  rw [secFiles_names]
  exact List.Nodup.map (fun _ _ h => dumpName_inj h) List.nodup_range'

theorem secFiles_take (sec : List Char) (h : 8 ≤ sec.length) (ts : List PTree) (i : ℕ) : ∀ n ∈ (secFiles sec i ts).map Prod.fst, n.take 8 = sec.take 8 := by
  intro n hn
  rw [secFiles_names, List.mem_map] at hn
  obtain ⟨k, -, rfl⟩ := hn
  exact List.take_append_of_le_length h

/-- The files of the system goals. -/
theorem goalFiles (rg : Bool) (sp : TSpec) :
    let l := (if rg then
          match sp.sgoals with
          | [] => []
          | t :: _ => [("sys_goal_ptree.dot".toList, t)]
        else secFiles "sys_goal".toList 0 sp.sgoals)
    (l.map Prod.fst).Nodup ∧ ∀ n ∈ l.map Prod.fst, n.take 8 = "sys_goal".toList := by
  cases rg
  · exact ⟨secFiles_nodup _ _ _, secFiles_take _ (by decide) _ _⟩
  · simp only [if_true]
    split
    · simp
    · refine ⟨by simp, ?_⟩
      intro n hn
      rw [List.map_cons, List.map_nil, List.mem_singleton] at hn
      subst hn
      rfl

theorem dumpCalls_nodup (rg : Bool) (sp : TSpec) : ((dumpCalls rg sp).map Prod.fst).Nodup := by
  have key : ∀ {l m : List (List Char)} {S : List (List Char)} {a : List Char}, l.Nodup → m.Nodup → (∀ n ∈ l, n.take 8 = a) →
      (∀ n ∈ m, n.take 8 ∈ S) → a ∉ S → (l ++ m).Nodup := by
    intro l m S a h1 h2 h3 h4 h5
    refine List.nodup_append.2 ⟨h1, h2, fun x hx y hy e => ?_⟩
    subst e
    exact h5 (h3 x hx ▸ h4 x hy)
  have kin : ∀ {l m : List (List Char)} {S : List (List Char)} {a : List Char}, (∀ n ∈ l, n.take 8 = a) → (∀ n ∈ m, n.take 8 ∈ S) →
      ∀ n ∈ l ++ m, n.take 8 ∈ a :: S := by
    intro l m S a h1 h2 n hn
    rcases List.mem_append.1 hn with h | h
    · exact List.mem_cons.2 (Or.inl (h1 n h))
    · exact List.mem_cons_of_mem _ (h2 n h)
  have one : ∀ s : List Char, ∀ n ∈ [s], n.take 8 = s.take 8 := by
    intro s n hn
    rw [List.mem_singleton.1 hn]
  unfold dumpCalls
  obtain ⟨g1, g2⟩ := goalFiles rg sp
  simp only [List.map_cons, List.map_append]
  have a1 := secFiles_take "env_goal".toList (by decide) sp.egoals 0
  have a2 := secFiles_take "sys_trans".toList (by decide) sp.strans 0
  have a3 := secFiles_take "env_trans".toList (by decide) sp.etrans 0
  have g3 := fun n hn => List.mem_singleton.2 (g2 n hn)
  have s1 := kin a1 g3
  have s2 := kin a2 s1
  have s3 := kin a3 s2
  have s4 := kin (one "sys_init_ptree.dot".toList) s3
  have n1 := key (secFiles_nodup _ _ _) g1 a1 g3 (by decide)
  have n2 := key (secFiles_nodup _ _ _) n1 a2 s1 (by decide)
  have n3 := key (secFiles_nodup _ _ _) n2 a3 s2 (by decide)
  have n4 := key (List.nodup_singleton _) n3 (one "sys_init_ptree.dot".toList) s3 (by decide)
  exact key (List.nodup_singleton _) n4 (one "env_init_ptree.dot".toList) s4 (by decide)

theorem partFile_iff (rg : Bool) (sp : FSpec) (h1 : rg = true → sp.sgoals.length ≤ 1) (n : List Char) (t : PTree) :
    PartFile rg sp n t ↔ (n, t) ∈ dumpCalls rg sp.toT := by
  have sec : ∀ (s : List Char) (fs : List Fm), (n, t) ∈ secFiles s 0 (fs.map Fm.toTree) ↔
      ∃ k f d, fs[k]? = some f ∧ Numbered k d ∧ n = s ++ (d ++ "_ptree.dot".toList) ∧ t = f.toTree := by
    intro s fs
    rw [mem_secFiles]
    constructor
    · rintro ⟨k, u, h, e⟩
      rw [List.getElem?_map, Option.map_eq_some_iff] at h
      obtain ⟨f, hf, rfl⟩ := h
      obtain ⟨rfl, rfl⟩ := Prod.mk.inj e
      exact ⟨k, f, padFive k, hf, numbered_iff.2 rfl, by rw [Nat.zero_add]; rfl, rfl⟩
    · rintro ⟨k, f, d, hf, hd, rfl, rfl⟩
      rw [numbered_iff.1 hd]
      exact ⟨k, _, by rw [List.getElem?_map, hf]; rfl, by rw [Nat.zero_add]; rfl⟩
  unfold dumpCalls
  simp only [List.mem_cons, List.mem_append, FSpec.toT, sec]
  constructor
  · rintro (_ | _ | ⟨k, f, d, h, hd⟩ | ⟨k, f, d, h, hd⟩ | ⟨k, f, d, h, hd⟩ | ⟨hrg, k, f, d, h, hd⟩ | ⟨hrg, f, h⟩)
    · exact Or.inl rfl
    · exact Or.inr (Or.inl rfl)
    · exact Or.inr (Or.inr (Or.inl ⟨k, f, d, h, hd, rfl, rfl⟩))
    · exact Or.inr (Or.inr (Or.inr (Or.inl ⟨k, f, d, h, hd, rfl, rfl⟩)))
    · exact Or.inr (Or.inr (Or.inr (Or.inr (Or.inl ⟨k, f, d, h, hd, rfl, rfl⟩))))
    · subst hrg
      refine Or.inr (Or.inr (Or.inr (Or.inr (Or.inr ?_))))
      exact (sec _ _).2 ⟨k, f, d, h, hd, rfl, rfl⟩
    · subst hrg
      refine Or.inr (Or.inr (Or.inr (Or.inr (Or.inr ?_))))
      simp [h]
  · rintro (h | h | ⟨k, f, d, h, hd, rfl, rfl⟩ | ⟨k, f, d, h, hd, rfl, rfl⟩ | ⟨k, f, d, h, hd, rfl, rfl⟩ | h)
    · obtain ⟨rfl, rfl⟩ := Prod.mk.inj h
      exact .einit
    · obtain ⟨rfl, rfl⟩ := Prod.mk.inj h
      exact .sinit
    · exact .etrans k f d h hd
    · exact .strans k f d h hd
    · exact .egoal k f d h hd
    · cases rg
      · obtain ⟨k, f, d, hk, hd, rfl, rfl⟩ := (sec _ _).1 h
        exact .sgoal rfl k f d hk hd
      · have h1 := h1 rfl
        rcases hg : sp.sgoals with _ | ⟨f, _ | ⟨f', fs⟩⟩
        · simp [hg] at h
        · simp only [if_true, hg, List.map_cons, List.map_nil, List.mem_singleton, Prod.mk.injEq] at h
          obtain ⟨rfl, rfl⟩ := h
          exact .goal rfl f hg
        · rw [hg] at h1
          simp at h1

theorem namedTree_node {ty : PTy} {nm : Option Name} {v : ℤ} {l r : PTree}
    (h : ty = .var ∨ ty = .next → ∃ n, nm = some n ∧ ∀ c ∈ n, JPlain c) (hl : NamedTree l) (hr : NamedTree r) :
    NamedTree (.node ty nm v l r) := by
  intro p ty' nm' v' l' r' e ht
  cases p with
  | nil =>
    simp only [subAt, PTree.node.injEq] at e
    obtain ⟨rfl, rfl, -⟩ := e
    exact h ht
  | cons b p =>
    cases b
    · exact hl p _ _ _ _ _ e ht
    · exact hr p _ _ _ _ _ e ht

theorem namedTree_nil : NamedTree .nil := by
  intro p ty nm v l r e
  rw [subAt_nil] at e
  cases e

theorem namedTree_fm (f : Fm) (h : ∀ x ∈ f.vars, ∀ c ∈ x.2, JPlain c) : NamedTree f.toTree := by
  have var : ∀ (nx : Bool) (n : Name), (∀ c ∈ n, JPlain c) → NamedTree (.node (varTy nx) (some n) 0 .nil .nil) := fun nx n hn =>
    namedTree_node (fun _ => ⟨n, rfl, hn⟩) namedTree_nil namedTree_nil
  have const : ∀ v, NamedTree (.node .const none v .nil .nil) := fun v =>
    namedTree_node (by simp) namedTree_nil namedTree_nil
  induction f with
  | const v => exact const v
  | var nx n => exact var nx n (h (nx, n) (by simp [Fm.vars]))
  | neg f ih => exact namedTree_node (by simp) namedTree_nil (ih h)
  | and f g ihf ihg | or f g ihf ihg | imp f g ihf ihg | equiv f g ihf ihg =>
    exact namedTree_node (by simp) (ihf fun x hx => h x (List.mem_append.2 (Or.inl hx))) (ihg fun x hx => h x (List.mem_append.2 (Or.inr hx)))
  | cmp op nx n c => exact namedTree_node (by cases op <;> simp [CmpOp.ty]) (var nx n (h (nx, n) (by simp [Fm.vars]))) (const c)

/-- The trees drawn are formulas of the specification, or empty. -/
theorem partFile_named {rg : Bool} {sp : FSpec} (h : ∀ f ∈ sp.all, ∀ x ∈ f.vars, ∀ c ∈ x.2, JPlain c) {n : List Char} {t : PTree}
    (ht : PartFile rg sp n t) : NamedTree t := by
  have opt : ∀ o : Option Fm, (∀ f ∈ o, f ∈ sp.all) → NamedTree (optTree o) := by
    intro o ho
    cases o with
    | none => exact namedTree_nil
    | some f => exact namedTree_fm f (h f (ho f rfl))
  have mem : ∀ {l : List Fm} {k : ℕ} {f : Fm}, (∀ f ∈ l, f ∈ sp.all) → l[k]? = some f → NamedTree f.toTree := fun hl hk =>
    namedTree_fm _ (h _ (hl _ (List.mem_of_getElem? hk)))
  unfold FSpec.all at *
  cases ht with
  | einit => exact opt _ fun f hf => by simp_all
  | sinit => exact opt _ fun f hf => by simp_all
  | etrans k f d hk => exact mem (fun f hf => by simp [hf]) hk
  | strans k f d hk => exact mem (fun f hf => by simp [hf]) hk
  | egoal k f d hk => exact mem (fun f hf => by simp [hf]) hk
  | sgoal hrg k f d hk => exact mem (fun f hf => by simp [hf]) hk
  | goal hrg f hk => exact namedTree_fm f (h f (by simp [hk]))

theorem dump_parts {rg : Bool} {sp : FSpec} (h1 : rg = true → sp.sgoals.length ≤ 1)
    (h : ∀ f ∈ sp.all, ∀ x ∈ f.vars, ∀ c ∈ x.2, JPlain c) {addr : ℕ → List Bool → ℕ} (ha : NodesApart addr (dumpCalls rg sp.toT)) :
    DumpsParts rg sp (dumpFiles addr rg sp.toT) := by
  refine ⟨?_, ?_, ?_⟩
  · have : (dumpFiles addr rg sp.toT).map Prod.fst = (dumpCalls rg sp.toT).map Prod.fst := by
      unfold dumpFiles
      rw [List.map_map]
      conv_rhs => rw [← List.zipIdx_map_fst 0 (dumpCalls rg sp.toT), List.map_map]
      rfl
    rw [this]
    exact dumpCalls_nodup rg sp.toT
  · intro n c hc
    unfold dumpFiles at hc
    obtain ⟨⟨x, i⟩, hx, e⟩ := List.mem_map.1 hc
    obtain ⟨rfl, -⟩ := Prod.mk.inj e
    exact ⟨x.2, (partFile_iff rg sp h1 _ _).2 (List.mem_of_getElem? (List.mem_zipIdx_iff_getElem?.1 hx))⟩
  · intro n t ht
    obtain ⟨i, hi⟩ := List.mem_iff_getElem?.1 ((partFile_iff rg sp h1 n t).1 ht)
    obtain ⟨g, name, k1, k2, k3⟩ := tree_dot_draws (partFile_named h ht) (ha i _ hi)
    refine ⟨_, g, addr i, name, ?_, k1, k2, k3⟩
    exact List.mem_map.2 ⟨((n, t), i), List.mem_zipIdx_iff_getElem?.2 hi, rfl⟩

theorem scoped_plain {ev sv : Decls} {flag : InitFlag} {sp : FSpec} (hp : PlainNames (ev ++ sv)) (h : WellScoped ev sv flag sp) :
    ∀ f ∈ sp.all, ∀ x ∈ f.vars, ∀ c ∈ x.2, JPlain c := by
  have key : ∀ {us ps : List Name} {f : Fm}, Scoped us ps f → (∀ n ∈ us, n ∈ (ev ++ sv).map Prod.fst) →
      (∀ n ∈ ps, n ∈ (ev ++ sv).map Prod.fst) → ∀ x ∈ f.vars, ∀ c ∈ x.2, JPlain c := by
    intro us ps f hs hu hq x hx
    have : x.2 ∈ (ev ++ sv).map Prod.fst := by
      rcases hb : x.1 with _ | _
      · exact hu _ ((hs x hx).1 hb)
      · exact hq _ ((hs x hx).2 hb)
    obtain ⟨v, hv, e⟩ := List.mem_map.1 this
    exact e ▸ hp v hv
  have nil : ∀ n ∈ ([] : List Name), n ∈ (ev ++ sv).map Prod.fst := fun n hn => absurd hn (by simp)
  have le : ∀ n ∈ ev.map Prod.fst, n ∈ (ev ++ sv).map Prod.fst := fun n hn => by
    rw [List.map_append]; exact List.mem_append_left _ hn
  have ls : ∀ n ∈ sv.map Prod.fst, n ∈ (ev ++ sv).map Prod.fst := fun n hn => by
    rw [List.map_append]; exact List.mem_append_right _ hn
  intro f hf
  unfold FSpec.all at hf
  simp only [List.mem_append, Option.mem_toList] at hf
  rcases hf with ((((hf | hf) | hf) | hf) | hf) | hf
  · refine key (h.einit f hf) ?_ nil
    split_ifs
    exacts [le, fun _ h => h]
  · refine key (h.sinit f hf) ?_ nil
    split_ifs
    exacts [ls, fun _ h => h]
  · exact key (h.etrans f hf) (fun _ h => h) le
  · exact key (h.strans f hf) (fun _ h => h) fun _ h => h
  · exact key (h.egoals f hf) (fun _ h => h) nil
  · exact key (h.sgoals f hf) (fun _ h => h) nil

theorem varShown_eq (b : ℤ) (d : Name × ℤ) (i : ℕ) : varShown b (d, i) = d.1 ++ (" (".toList ++ (decimal i ++
    (if d.2 = b then "; bool)".toList else "; {0..".toList ++ (printInt d.2 ++ "})".toList)))) := by
  unfold varShown
  by_cases hv : d.2 = b
  · simp only [hv, if_true, List.append_assoc]; rfl
  · simp only [hv, if_false, List.append_assoc]; rfl

theorem varsLoop_shown (b : ℤ) (ds : Decls) : ∀ i, ds ≠ [] → varsLoop b i ds.tree = List.intercalate ", ".toList ((ds.zipIdx i).map (varShown b)) := by
  induction ds with
  | nil => intro i h; exact absurd rfl h
  | cons d ds ih =>
    intro i _
    have e : Decls.tree (d :: ds) = .node .var (some d.1) d.2 (Decls.tree ds) .nil := rfl
    have e1 : printInt (i : ℤ) = decimal i := by simp [printInt]
    rw [e, varsLoop, e1]
    rcases ds with _ | ⟨d', ds⟩
    · have e2 : Decls.tree [] = .nil := rfl
      simp only [List.zipIdx_cons, List.zipIdx_nil, List.map_cons, List.map_nil, List.intercalate_singleton, varShown_eq, e2, if_true, varsLoop,
        List.append_nil]
      rfl
    · have e2 : Decls.tree (d' :: ds) ≠ .nil := by simp [Decls.tree, ofItems]
      rw [ih (i + 1) (by simp), if_neg (c := Decls.tree (d' :: ds) = .nil) e2]
      simp only [List.zipIdx_cons, List.map_cons, List.intercalate_cons_cons]
      rw [varShown_eq b d i]
      simp only [List.append_assoc]
      rfl

theorem varsText_listing (b : ℤ) (ev sv : Decls) : varsText b ev.tree sv.tree = listingBy b ev sv := by
  have hs : PTree.size ev.tree = ev.length := by unfold Decls.tree; rw [list_size]; simp
  have e0 : ∀ ds : Decls, Decls.tree ds = .nil ↔ ds = [] := by intro ds; cases ds <;> simp [Decls.tree, ofItems]
  have part : ∀ (i : ℕ) (ds : Decls), (if ds.tree = .nil then "(none)".toList else varsLoop b i ds.tree) = varsShown b (ds.zipIdx i) := by
    intro i ds
    unfold varsShown
    by_cases h : ds = []
    · subst h; rfl
    · rw [if_neg (by rwa [e0]), if_neg (by simpa [List.zipIdx_eq_nil_iff] using h), varsLoop_shown b ds i h]
  have z : (ev ++ sv).zipIdx = ev.zipIdx ++ sv.zipIdx ev.length := by rw [List.zipIdx_append, Nat.zero_add]
  have zl : ev.length = (ev.zipIdx).length := by simp
  unfold varsText varsPart listingBy
  rw [part, part, hs]
  simp only [z]
  rw [show (ev.zipIdx ++ sv.zipIdx ev.length).take ev.length = ev.zipIdx from List.take_left' zl.symm,
    show (ev.zipIdx ++ sv.zipIdx ev.length).drop ev.length = sv.zipIdx ev.length from List.drop_left' zl.symm]
  simp

/-! ## C70 -/

/-- **C70.** A call of `gr1c` with `-p`, without `-s`, on a specification whose variables are declared and used where they may be: every
part of the specification, with the defaults for empty sections, is drawn in a file of its own; the variables with their indices
and domains and then the lines of `print_GR1_spec` are written to the screen. -/
theorem dump_gr1c {w : World} {args : List Arg} {os : List Opt} {f : Option Arg} {d : FileData} (hr : RunsOn w args os f d)
    (hp : Opt.ptdump ∈ os) (hrun : (meaning os f).run ≠ .syntaxOnly) (hs : WellScoped d.evars d.svars (meaning os f).init d.sp)
    {addr : ℕ → List Bool → ℕ} (ha : NodesApart addr (dumpCalls false (filledSpec d.sp).toT)) (stamp : Option (List Char))
    {σ : LogSt} (hσ : 0 ∈ σ.live) :
    ∃ D τ, mainDump w addr stamp args σ = some D ∧ DumpsParts false (filledSpec d.sp) D.files ∧ D.out = .ok τ ∧
      τ.text = (σ.more 0 (listing d.evars d.svars ++ formulaLines d.evars d.svars (filledSpec d.sp))).text := by
  obtain ⟨text, h3, h4⟩ := hr.called
  have h5 : w.source (meaning os f).input = some text := h3.source.source
  have h6 : checkGr1cForm d.toP.ev d.toP.sv (meaning os f).init d.toP.sp = 0 := (check_form_exact _ _ _ _).1 hs
  have h7 : (meaning os f).ptdump = true := by simp [meaning, hp]
  have hm : (0 : ℕ) ∈ (σ.more 0 (listing d.evars d.svars)).live := hσ
  obtain ⟨τ, t1, t2, -⟩ := print_spec_lines stamp d.evars d.svars (filledSpec d.sp) hm
  refine ⟨⟨dumpFiles addr false (omissionDefaults d.toP.sp), printGr1Spec stamp d.evars.tree d.svars.tree (filledSpec d.sp).toT (some 0)
    (σ.more 0 (listing d.evars d.svars))⟩, τ, ?_, ?_, ?_, ?_⟩
  rotate_left
  · have e : omissionDefaults d.toP.sp = (filledSpec d.sp).toT := (filledSpec_toT _).symm
    show DumpsParts false (filledSpec d.sp) (dumpFiles addr false (omissionDefaults d.toP.sp))
    rw [e]
    exact dump_parts (by simp) (all_filled (by simp [Fm.vars]) (scoped_plain h4.plain hs)) ha
  · exact t1
  · rw [t2]
    funext j
    simp only [LogSt.more, formulaLines]
    split_ifs <;> simp
  · unfold mainDump
    rw [called_run h3]
    simp only [h5, h4.parsed.1, Option.bind_some]
    unfold ptDump
    rw [h6, if_neg (by decide), if_neg hrun, if_pos h7]
    have e1 : σ.put 0 (varsText (-1) d.toP.ev d.toP.sv) = .ok (σ.more 0 (listing d.evars d.svars)) := by
      rw [show varsText (-1) d.toP.ev d.toP.sv = listing d.evars d.svars from varsText_listing _ _ _]
      exact if_pos hσ
    rw [e1, show omissionDefaults d.toP.sp = (filledSpec d.sp).toT from (filledSpec_toT _).symm]
    rfl

/-- **C70.** Without `-p`, with `-s`, or if a variable is not declared or used where it may not be, nothing of this is written. -/
theorem dump_gr1c_not {w : World} {args : List Arg} {os : List Opt} {f : Option Arg} {text : List Char} {d : FileData}
    (hc : Called w args os f text) (hf : FileSays text d)
    (h : Opt.ptdump ∉ os ∨ (meaning os f).run = .syntaxOnly ∨ ¬ WellScoped d.evars d.svars (meaning os f).init d.sp)
    (addr : ℕ → List Bool → ℕ) (stamp : Option (List Char)) (σ : LogSt) : mainDump w addr stamp args σ = none := by
  have h5 : w.source (meaning os f).input = some text := hc.source.source
  unfold mainDump
  rw [called_run hc]
  simp only [h5, hf.parsed.1, Option.bind_some]
  unfold ptDump
  rcases h with h | h | h
  · have h7 : (meaning os f).ptdump = false := by simp [meaning, h]
    rw [h7]
    simp
  · rw [if_pos h]
    simp
  · have h6 : checkGr1cForm d.toP.ev d.toP.sv (meaning os f).init d.toP.sp = -1 := (check_form_exact _ _ _ _).2 h
    rw [h6, if_pos (by decide)]

/-- The specification of a reachability game with the defaults for empty sections. -/
def rgFilled (sp : FSpec) : FSpec :=
  { sp with
    etrans := if sp.etrans = [] then [.const 1] else sp.etrans
    strans := if sp.strans = [] then [.const 1] else sp.strans }

theorem rgFilled_toT (sp : FSpec) : (rgFilled sp).toT = rgDefaults sp.toT := by
  have key : ∀ l : List Fm, (if l = [] then [.const 1] else l).map Fm.toTree =
      if l.map Fm.toTree = [] then [initPtree .const none 1] else l.map Fm.toTree := by
    intro l
    cases l <;> rfl
  unfold FSpec.toT rgDefaults rgFilled
  simp only [key]

/-- What `gr1c-rg` echoes: the initial conditions and the goals. The lines for the transitions are empty. -/
def rgEcho (sp : FSpec) : List Char :=
  "ENV INIT:  ".toList ++ (sp.einit.map fun f => printFormula false f.toTree).getD [] ++
  "\nSYS INIT:  ".toList ++ (sp.sinit.map fun f => printFormula false f.toTree).getD [] ++
  "\nENV TRANS:  [] \nSYS TRANS:  [] \nENV GOALS:  ".toList ++
  (if sp.egoals = [] then "(none)".toList
    else List.intercalate " & ".toList (sp.egoals.map fun f => "[]<> ".toList ++ printFormula false f.toTree)) ++
  "\nSYS GOAL:  ".toList ++ ((sp.sgoals.head?.map fun f => "<> ".toList ++ printFormula false f.toTree).getD "(none)".toList) ++ "\n".toList

theorem rgFormulas_echo (sp : FSpec) : rgFormulas .nil .nil sp.toT = rgEcho sp := by
  have opt : ∀ o : Option Fm, printFormula false (optTree o) = (o.map fun f => printFormula false f.toTree).getD [] := by
    intro o
    cases o <;> simp [optTree, printFormula]
  have goals : ∀ (f : Fm) (l : List Fm), List.intercalate " & ".toList ((f :: l).map fun f => "[]<> ".toList ++ printFormula false f.toTree) =
      "[]<> ".toList ++ (printFormula false f.toTree ++ (l.map Fm.toTree).flatMap fun g => " & []<> ".toList ++ printFormula false g) := by
    intro f l
    induction l generalizing f with
    | nil => simp [List.intercalate]
    | cons g l ih =>
      have := ih g
      simp only [List.map_cons, List.intercalate, List.intersperse, List.flatten_cons, List.flatMap_cons] at this ⊢
      rw [this]
      simp
  unfold rgFormulas rgEcho FSpec.toT
  simp only [opt]
  have e1 : rgEgoals (sp.egoals.map Fm.toTree) = (if sp.egoals = [] then "(none)".toList
      else List.intercalate " & ".toList (sp.egoals.map fun f => "[]<> ".toList ++ printFormula false f.toTree)) := by
    cases sp.egoals with
    | nil => rfl
    | cons f l => rw [if_neg (by simp), goals]; rfl
  have e2 : rgGoal (sp.sgoals.map Fm.toTree) =
    ((sp.sgoals.head?.map fun f => "<> ".toList ++ printFormula false f.toTree).getD "(none)".toList) := by
    cases sp.sgoals <;> rfl
  simp only [e1, e2]
  simp [printFormula]

/-- **C70.** The same for `gr1c-rg`: files and variables are as for `gr1c`, but of the formulas only those that are not about transitions
are echoed. -/
theorem dump_rg_partial {w : World} {args : List Arg} {os : List Opt} {f : Option Arg} {d : FileData} (hr : RgRunsOn w args os f d)
    (hp : Opt.ptdump ∈ os) (hrun : (rgMeaning os f).run ≠ .syntaxOnly) (h1 : d.sp.sgoals.length ≤ 1)
    (hs : WellScoped d.evars d.svars (rgMeaning os f).init d.sp)
    {addr : ℕ → List Bool → ℕ} (ha : NodesApart addr (dumpCalls true (rgFilled d.sp).toT)) {σ : LogSt} (hσ : 0 ∈ σ.live) :
    ∃ D τ, rgDump w addr args σ = some D ∧ DumpsParts true (rgFilled d.sp) D.files ∧ D.out = .ok τ ∧
      τ.text = (σ.more 0 (listing d.evars d.svars ++ rgEcho (rgFilled d.sp))).text := by
  obtain ⟨text, h3, h4⟩ := hr.called
  have h5 : w.source (rgMeaning os f).input = some text := h3.source.source
  have h6 : checkGr1cForm d.toP.ev d.toP.sv (rgMeaning os f).init d.toP.sp = 0 := (check_form_exact _ _ _ _).1 hs
  have h7 : (rgMeaning os f).ptdump = true := by simp [rgMeaning, meaning, hp]
  have h8 : (rgMeaning os f).help = false := by simp [rgMeaning, meaning, h3.noHelp]
  have h9 : ¬ 1 < d.toP.sp.sgoals.length := by simp [FileData.toP, FSpec.toT]; omega
  have e : rgDefaults d.toP.sp = (rgFilled d.sp).toT := (rgFilled_toT _).symm
  refine ⟨⟨dumpFiles addr true (rgFilled d.sp).toT, .ok (σ.more 0 (listing d.evars d.svars ++ rgEcho (rgFilled d.sp)))⟩, _, ?_, ?_, rfl, rfl⟩
  · unfold rgDump
    rw [rg_cli h3.line]
    simp only [h8, h5, h4.parsed.1, Option.bind_some, Bool.false_eq_true, if_false]
    unfold rgPtDump
    rw [if_neg h9, h6, if_neg (by decide), if_neg hrun, if_pos h7, e, rgFormulas_echo,
      show varsText (-1) d.toP.ev d.toP.sv = listing d.evars d.svars from varsText_listing _ _ _]
    congr 2
    exact if_pos hσ
  · refine dump_parts (sp := rgFilled d.sp) (fun _ => h1) ?_ ha
    have hq := scoped_plain h4.plain hs
    intro f hf
    have def1 : ∀ {l : List Fm}, (∀ f ∈ l, f ∈ d.sp.all) → f ∈ (if l = [] then [.const 1] else l) → ∀ x ∈ f.vars, ∀ c ∈ x.2, JPlain c := by
      intro l hl hf
      split_ifs at hf
      · rw [List.mem_singleton.1 hf]; simp [Fm.vars]
      · exact hq f (hl f hf)
    unfold FSpec.all at hf
    simp only [List.mem_append, rgFilled, Option.mem_toList] at hf
    rcases hf with ((((hf | hf) | hf) | hf) | hf) | hf
    · exact hq f (by simp [FSpec.all, hf])
    · exact hq f (by simp [FSpec.all, hf])
    · exact def1 (fun g hg => by simp [FSpec.all, hg]) hf
    · exact def1 (fun g hg => by simp [FSpec.all, hg]) hf
    · exact hq f (by simp [FSpec.all, hf])
    · exact hq f (by simp [FSpec.all, hf])

/-- **C70.** The same for `gr1c-patch`, where also the formula given with `-f` is drawn; in the list of variables, the domains of Boolean
variables are wrong. -/
theorem dump_patch_partial {c : PgCfg} {d : FileData} {φ : Option Fm} (hp : c.ptdump = true) (hs : WellScoped d.evars d.svars .undefined d.sp)
    (hd : PlainNames (d.evars ++ d.svars)) (hf : pgForm c = some (optTree φ))
    (hv : ∀ f, φ = some f → Scoped ((d.evars ++ d.svars).map Prod.fst) [] f)
    {addr : ℕ → List Bool → ℕ} (ha : NodesApart addr (("clformula_ptree.dot".toList, optTree φ) :: dumpCalls false (filledSpec d.sp).toT))
    (stamp : Option (List Char)) {σ : LogSt} (hσ : 0 ∈ σ.live) :
    ∃ x g name rest τ D, pgPtDump addr stamp c d.toP σ = some D ∧ DumpsParts false (filledSpec d.sp) rest ∧
      readDot x = some g ∧ DrawsTree (addr 0) (optTree φ) g name ∧
      D.files = (if c.form = none then [] else [("clformula_ptree.dot".toList, x)]) ++ rest ∧ D.out = .ok τ ∧
      τ.text = (σ.more 0 (listingBy 0 d.evars d.svars ++ formulaLines d.evars d.svars (filledSpec d.sp))).text := by
  have hv' : (checkVars (chainVars d.svars.tree d.evars.tree) .nil (optTree φ)).isSome = false := by
    cases φ with
    | none => rfl
    | some f =>
      rw [chain_tree]
      refine (checkVars_scoped (d.svars ++ d.evars) [] f).2 fun x hx => ?_
      have := hv f rfl x hx
      simpa [or_comm] using this
  have hn : NamedTree (optTree φ) := by
    cases φ with
    | none => exact namedTree_nil
    | some f =>
      refine namedTree_fm f fun x hx => ?_
      have := hv f rfl x hx
      have : x.2 ∈ (d.evars ++ d.svars).map Prod.fst := by
        rcases hb : x.1 with _ | _
        · exact this.1 hb
        · exact absurd (this.2 hb) (by simp)
      obtain ⟨v, hv, e⟩ := List.mem_map.1 this
      exact e ▸ hd v hv
  obtain ⟨g, name, g1, g2, -⟩ := tree_dot_draws hn (ha 0 _ rfl)
  have h6 : checkGr1cForm d.toP.ev d.toP.sv .undefined d.toP.sp = 0 := (check_form_exact _ _ _ _).1 hs
  have hm : (0 : ℕ) ∈ (σ.more 0 (listingBy 0 d.evars d.svars)).live := hσ
  obtain ⟨τ, t1, t2, -⟩ := print_spec_lines stamp d.evars d.svars (filledSpec d.sp) hm
  have e : omissionDefaults d.toP.sp = (filledSpec d.sp).toT := (filledSpec_toT _).symm
  refine ⟨_, g, name, dumpFiles (fun i => addr (i + 1)) false (filledSpec d.sp).toT, τ,
    ⟨(if c.form = none then [] else [("clformula_ptree.dot".toList, treeDotDump (addr 0) (optTree φ))]) ++
      dumpFiles (fun i => addr (i + 1)) false (filledSpec d.sp).toT,
      printGr1Spec stamp d.evars.tree d.svars.tree (filledSpec d.sp).toT (some 0) (σ.more 0 (listingBy 0 d.evars d.svars))⟩,
    ?_, ?_, g1, g2, rfl, t1, ?_⟩
  · unfold pgPtDump
    rw [h6, if_neg (by decide), hf, Option.bind_some, show d.toP.sv = d.svars.tree from rfl, show d.toP.ev = d.evars.tree from rfl, hv',
      if_neg (by decide), if_pos hp, e]
    have e1 : σ.put 0 (varsText 0 d.evars.tree d.svars.tree) = .ok (σ.more 0 (listingBy 0 d.evars d.svars)) := by
      rw [varsText_listing]
      exact if_pos hσ
    rw [e1]
    cases c.form <;> rfl
  · exact dump_parts (by simp) (all_filled (by simp [Fm.vars]) (scoped_plain hd hs)) fun i y hy => ha (i + 1) y hy
  · rw [t2]
    funext j
    simp only [LogSt.more, formulaLines]
    split_ifs <;> simp

/-! ## Examples -/

namespace PtDumpEx

/-- Different addresses for all nodes. -/
def place : List Bool → ℕ
  | [] => 0
  | b :: p => 2 * place p + (if b then 2 else 1)

def addr : ℕ → List Bool → ℕ := fun _ => place

theorem place_inj : ∀ p q, place p = place q → p = q
  | [], [], _ => rfl
  | [], b :: q, h => by simp only [place] at h; split at h <;> omega
  | b :: p, [], h => by simp only [place] at h; split at h <;> omega
  | b :: p, c :: q, h => by
    simp only [place] at h
    have : b = c ∧ place p = place q := by
      cases b <;> cases c <;> simp at h ⊢ <;> omega
    rw [this.1, place_inj p q this.2]

theorem apart (calls : List (List Char × PTree)) : NodesApart addr calls := fun _ _ _ p q _ _ h => place_inj p q h

/-- Only standard output, nothing written so far. -/
def σ : LogSt := ⟨some 0, 0, [], [0], fun _ => []⟩

/-- `gr1c -p s.spc` -/
example : ∃ (w : World) (D : PtDump) (τ : LogSt), mainDump w addr none ["-p".toList, "s.spc".toList] σ = some D ∧
    DumpsParts false (filledSpec MainEx.d2.sp) D.files ∧ D.out = .ok τ ∧
    τ.text 0 = ("Environment variables (indices; domains): (none)\n\nSystem variables (indices; domains): x (0; bool)\n\n" ++
      "ENV:;\nSYS: x;\nENV INIT:  ;\nSYS INIT:  (!x);\nENV TRANS:  [] True;\nSYS TRANS:  [] (x'<->x);\nENV GOALS:  (none);\n" ++
      "SYS GOALS:  []<> x;\n").toList := by
  obtain ⟨text, ht⟩ := MainEx.says2
  let w : World := { MainEx.world text [] 0 with canDump := true }
  have hrun : RunsOn w ["-p".toList, "s.spc".toList] [.ptdump] (some "s.spc".toList) MainEx.d2 :=
    ⟨⟨text, ⟨⟨["-p".toList], ["s.spc".toList], .cons (.flag (by decide)) .nil, .file _ (by decide), rfl⟩, by decide, by decide,
      by simp, by decide, Or.inl ⟨_, rfl, by simp [w, MainEx.world]⟩⟩, ht⟩, fun _ => rfl⟩
  obtain ⟨D, τ, h1, h2, h3, h4⟩ := dump_gr1c hrun (by simp) (by decide) MainEx.good2.scope (apart _) none (σ := σ) (by simp [σ])
  refine ⟨w, D, τ, h1, h2, h3, ?_⟩
  rw [h4]
  simp only [LogSt.more, if_true]
  decide +kernel

end PtDumpEx

/-- **C70 is false as stated.** `gr1c-rg -p` echoes no transition rule: here the specification has two for the system. -/
theorem rg_echo_hides_transitions : ∃ (w : World) (D : PtDump) (τ : LogSt),
    RgRunsOn w ["-p".toList, "s.spc".toList] [.ptdump] (some "s.spc".toList) (RgEx.data (RgEx.goal true)) ∧
    (RgEx.data (RgEx.goal true)).sp.strans.length = 2 ∧
    rgDump w PtDumpEx.addr ["-p".toList, "s.spc".toList] PtDumpEx.σ = some D ∧ D.out = .ok τ ∧
    τ.text 0 = ("Environment variables (indices; domains): a (0; bool)\n\nSystem variables (indices; domains): z (1; {0..2})\n\n" ++
      "ENV INIT:  \nSYS INIT:  (z=0)\nENV TRANS:  [] \nSYS TRANS:  [] \nENV GOALS:  []<> a\nSYS GOAL:  <> (z=2)\n").toList := by
  obtain ⟨text, ht⟩ := RgEx.readable true
  let w : World := { MainEx.world text [] 0 with canDump := true }
  have hrun : RgRunsOn w ["-p".toList, "s.spc".toList] [.ptdump] (some "s.spc".toList) (RgEx.data (RgEx.goal true)) :=
    ⟨⟨text, ⟨⟨⟨["-p".toList], ["s.spc".toList], .cons (.flag (by decide)) .nil, .file _ (by decide), rfl⟩,
      by simp [RgOpt]⟩, by simp, Or.inl ⟨_, rfl, by simp [w, MainEx.world]⟩⟩, ht⟩, fun _ => rfl⟩
  obtain ⟨D, τ, h1, h2, h3, h4⟩ := dump_rg_partial hrun (by simp) (by decide) (by decide) (RgEx.good true).scope (PtDumpEx.apart _)
    (σ := PtDumpEx.σ) (by simp [PtDumpEx.σ])
  refine ⟨w, D, τ, hrun, rfl, h1, h3, ?_⟩
  rw [h4]
  simp only [LogSt.more, if_true]
  decide +kernel


/-- **C70 is false as stated.** `gr1c-patch -p` shows the domain {0..-1} for Boolean variables, and calls integers with the domain [0,0]
Boolean. -/
theorem patch_echo_domains (stamp : Option (List Char)) : ∃ (D : PtDump) (τ : LogSt) (d : FileData) (t : List Char),
    d.evars = [(['a'], -1)] ∧ d.svars = [(['z'], 0)] ∧
    pgPtDump PtDumpEx.addr stamp { ptdump := true, rm := 0 } d.toP PtDumpEx.σ = some D ∧ D.out = .ok τ ∧
    τ.text 0 = ("Environment variables (indices; domains): a (0; {0..-1})\n\nSystem variables (indices; domains): z (1; bool)\n\n").toList ++ t := by
  let d : FileData := ⟨[(['a'], -1)], [(['z'], 0)], ⟨none, none, [], [], [], [.var false ['a']]⟩⟩
  obtain ⟨-, -, -, rest, τ, D, h1, -, -, -, -, h2, h3⟩ := dump_patch_partial (c := { ptdump := true, rm := 0 }) (d := d) (φ := none) rfl (by
    by_contra h
    have := (check_form_exact _ _ .undefined _).2 h
    revert this
    decide +kernel) (by
      intro v hv c hc
      simp only [d, List.cons_append, List.nil_append, List.mem_cons, List.not_mem_nil, or_false] at hv
      rcases hv with rfl | rfl <;> (rw [List.mem_singleton.1 hc]; exact ⟨by decide, by decide, by decide⟩))
    rfl (by simp) (addr := PtDumpEx.addr) (PtDumpEx.apart _) stamp (σ := PtDumpEx.σ) (by simp [PtDumpEx.σ])
  refine ⟨D, τ, d, formulaLines d.evars d.svars (filledSpec d.sp), rfl, rfl, h1, h2, ?_⟩
  rw [h3]
  show [] ++ (listingBy 0 d.evars d.svars ++ formulaLines d.evars d.svars (filledSpec d.sp)) = _
  rw [List.nil_append]
  congr 1

/-- The hypotheses of `tree_dot_draws` hold for `x' -> y`. -/
example : ∃ g name, readDot (treeDotDump PtDumpEx.place TreeDotEx.t) = some g ∧ DrawsTree PtDumpEx.place TreeDotEx.t g name := by
  obtain ⟨g, name, h1, h2, -⟩ := tree_dot_draws (namedTree_fm (.imp (.var true ['x']) (.var false ['y'])) (by
    intro x hx c hc
    simp only [Fm.vars, List.cons_append, List.nil_append, List.mem_cons, List.not_mem_nil, or_false] at hx
    rcases hx with rfl | rfl <;> (rw [List.mem_singleton.1 hc]; exact ⟨by decide, by decide, by decide⟩)))
    (addr := PtDumpEx.place) (fun p q _ _ h => PtDumpEx.place_inj p q h)
  exact ⟨g, name, h1, h2⟩


end Gr1c
