import Verif.JsonLemmas

/-!
# C56: the JSON output is JSON and describes the strategy
-/

namespace Gr1c

/-! ## What a description determines -/

theorem isDig_minus : isDig '-' = false := by decide
theorem isDig_plus : isDig '+' = false := by decide

theorem intText_unique {w : List Char} {v v' : ℤ} (h : IntText w v) (h' : IntText w v') : v = v' := by
  obtain ⟨ds, h1, h2, h3⟩ := h
  obtain ⟨ds', h1', h2', h3'⟩ := h'
  have hne : ∀ {l : List Char} {c : Char}, l ≠ [] → (∀ x ∈ c :: l, isDig x = true) → isDig c = false → False := by
    intro l c _ hl hc
    have := hl c (List.mem_cons_self ..)
    rw [hc] at this; cases this
  rcases h3 with ⟨rfl, rfl⟩ | ⟨rfl | rfl, rfl⟩ <;> rcases h3' with ⟨e, rfl⟩ | ⟨e | e, rfl⟩
  · cases e; rfl
  · subst e; exact (hne h1 h2' isDig_minus).elim
  · cases e
  · subst e; exact (hne h1' h2 isDig_minus).elim
  · subst e; rfl
  · subst e; exact (hne h1' h2 isDig_plus).elim
  · cases e
  · subst e; exact (hne h1 h2' isDig_plus).elim
  · cases e; rfl

theorem JVal.IsInt.unique {j : JVal} {v v' : ℤ} (h : j.IsInt v) (h' : j.IsInt v') : v = v' := by
  obtain ⟨w, rfl, h⟩ := h
  obtain ⟨w', e, h'⟩ := h'
  cases e
  exact intText_unique h h'

/-- Two lists described by the same array. -/
theorem JVal.IsArr.both {α β : Type} {P : α → JVal → Prop} {Q : β → JVal → Prop} {R : α → β → Prop} {l : List α}
    {l' : List β} {j : JVal} (h : j.IsArr P l) (h' : j.IsArr Q l') (hR : ∀ x y j, P x j → Q y j → R x y) :
    List.Forall₂ R l l' := by
  obtain ⟨vs, rfl, h⟩ := h
  obtain ⟨vs', e, h'⟩ := h'
  cases e
  induction h generalizing l' with
  | nil => cases h'; exact .nil
  | cons h _ ih =>
    cases h' with
    | cons h1 h2 => exact .cons (hR _ _ _ h h1) (ih h2)

theorem forall₂_eq {α : Type} {l l' : List α} (h : List.Forall₂ (· = ·) l l') : l = l' := by
  induction h with
  | nil => rfl
  | cons h _ ih => rw [h, ih]

/-- Members with the same name are the same. -/
theorem JVal.Has.both {j : JVal} {want want' : List (String × (JVal → Prop))} (h : j.Has want) (h' : j.Has want')
    {k : String} {P Q : JVal → Prop} (hP : (k, P) ∈ want) (hQ : (k, Q) ∈ want') : ∃ v, P v ∧ Q v := by
  obtain ⟨ms, rfl, hnd, h⟩ := h
  obtain ⟨ms', e, -, h'⟩ := h'
  cases e
  obtain ⟨v, h1, h2⟩ := h _ hP
  obtain ⟨v', h1', h2'⟩ := h' _ hQ
  have : (k.toList, v) = (k.toList, v') := List.inj_on_of_nodup_map hnd h1 h1' rfl
  cases this
  exact ⟨v, h2, h2'⟩

/-- The same declaration; every negative number says Boolean. -/
def SameVar (v v' : List Char × ℤ) : Prop := v.1 = v'.1 ∧ (v.2 = v'.2 ∨ (v.2 < 0 ∧ v'.2 < 0))

theorem JVal.IsVar.same {v v' : List Char × ℤ} {j : JVal} (h : j.IsVar v) (h' : j.IsVar v') : SameVar v v' := by
  obtain ⟨d, rfl, h⟩ := h
  obtain ⟨d', e, h'⟩ := h'
  simp only [JVal.obj.injEq, List.cons.injEq, Prod.mk.injEq, and_true] at e
  obtain ⟨e1, rfl⟩ := e
  refine ⟨e1, ?_⟩
  split at h <;> split at h'
  · have := forall₂_eq (JVal.IsArr.both h h' fun x y j => JVal.IsInt.unique)
    simp only [List.cons.injEq, and_true, true_and] at this
    exact Or.inl this
  · obtain ⟨vs, e, -⟩ := h
    rw [h'] at e; cases e
  · obtain ⟨vs, e, -⟩ := h'
    rw [h] at e; cases e
  · right; constructor <;> omega

/-- The same automaton, with other names for its nodes. -/
def RenamedAut (a a' : Aut ℤ (List ℤ)) : Prop :=
  ∃ R : ℕ → ℕ → Prop, (∀ x y y', R x y → R x y' → y = y') ∧ (∀ x x' y, R x y → R x' y → x = x') ∧
    List.Forall₂ (fun n n' => R n.id n'.id ∧ n.state = n'.state ∧ n.mode = n'.mode ∧ n.rgrad = n'.rgrad ∧
      n.initial = n'.initial ∧ List.Forall₂ R n.trans n'.trans) a a'

/-- **C56.** The documented description of a strategy determines its variables and, up to the names of the
nodes, the automaton. -/
theorem json_determines {j : JVal} {ev sv ev' sv' : List (List Char × ℤ)} {a a' : Aut ℤ (List ℤ)}
    (h : j.IsStrategy ev sv a) (h' : j.IsStrategy ev' sv' a') :
    List.Forall₂ SameVar ev ev' ∧ List.Forall₂ SameVar sv sv' ∧ RenamedAut a a' := by
  obtain ⟨name, hin, h⟩ := h
  obtain ⟨name', hin', h'⟩ := h'
  refine ⟨?_, ?_, ?_⟩
  · obtain ⟨v, h1, h2⟩ := h.both h' (k := "ENV") (List.mem_cons_of_mem _ (List.mem_cons_of_mem _ (List.mem_cons_of_mem _
      (List.mem_cons_of_mem _ (List.mem_cons_self ..))))) (List.mem_cons_of_mem _ (List.mem_cons_of_mem _
      (List.mem_cons_of_mem _ (List.mem_cons_of_mem _ (List.mem_cons_self ..)))))
    exact JVal.IsArr.both h1 h2 fun x y j => JVal.IsVar.same
  · obtain ⟨v, h1, h2⟩ := h.both h' (k := "SYS") (List.mem_cons_of_mem _ (List.mem_cons_of_mem _ (List.mem_cons_of_mem _
      (List.mem_cons_of_mem _ (List.mem_cons_of_mem _ (List.mem_cons_self ..)))))) (List.mem_cons_of_mem _
      (List.mem_cons_of_mem _ (List.mem_cons_of_mem _ (List.mem_cons_of_mem _ (List.mem_cons_of_mem _ (List.mem_cons_self ..))))))
    exact JVal.IsArr.both h1 h2 fun x y j => JVal.IsVar.same
  · obtain ⟨v, h1, h2⟩ := h.both h' (k := "nodes") (List.mem_cons_of_mem _ (List.mem_cons_of_mem _ (List.mem_cons_of_mem _
      (List.mem_cons_of_mem _ (List.mem_cons_of_mem _ (List.mem_cons_of_mem _ (List.mem_cons_self ..)))))))
      (List.mem_cons_of_mem _ (List.mem_cons_of_mem _ (List.mem_cons_of_mem _ (List.mem_cons_of_mem _ (List.mem_cons_of_mem _
      (List.mem_cons_of_mem _ (List.mem_cons_self ..)))))))
    obtain ⟨ms, rfl, -, h1⟩ := h1
    obtain ⟨ms', e, -, h2⟩ := h2
    cases e
    refine ⟨fun x y => name x = name' y, fun x y y' p q => hin' _ _ (p.symm.trans q),
      fun x x' y p q => hin _ _ (p.trans q.symm), ?_⟩
    clear h h'
    induction h1 generalizing a' with
    | nil => cases h2; exact .nil
    | @cons n m a ms p _ ih =>
      cases h2 with
      | @cons n' _ a' _ q q' =>
        refine .cons ⟨p.1.symm.trans q.1, ?_⟩ (ih q')
        obtain ⟨-, p⟩ := p
        obtain ⟨-, q⟩ := q
        obtain ⟨v1, x1, y1⟩ := p.both q (k := "state") (List.mem_cons_self ..) (List.mem_cons_self ..)
        obtain ⟨v2, x2, y2⟩ := p.both q (k := "mode") (List.mem_cons_of_mem _ (List.mem_cons_self ..))
          (List.mem_cons_of_mem _ (List.mem_cons_self ..))
        obtain ⟨v3, x3, y3⟩ := p.both q (k := "rgrad") (List.mem_cons_of_mem _ (List.mem_cons_of_mem _ (List.mem_cons_self ..)))
          (List.mem_cons_of_mem _ (List.mem_cons_of_mem _ (List.mem_cons_self ..)))
        obtain ⟨v4, x4, y4⟩ := p.both q (k := "initial") (List.mem_cons_of_mem _ (List.mem_cons_of_mem _
          (List.mem_cons_of_mem _ (List.mem_cons_self ..)))) (List.mem_cons_of_mem _ (List.mem_cons_of_mem _
          (List.mem_cons_of_mem _ (List.mem_cons_self ..))))
        obtain ⟨v5, x5, y5⟩ := p.both q (k := "trans") (List.mem_cons_of_mem _ (List.mem_cons_of_mem _
          (List.mem_cons_of_mem _ (List.mem_cons_of_mem _ (List.mem_cons_self ..))))) (List.mem_cons_of_mem _
          (List.mem_cons_of_mem _ (List.mem_cons_of_mem _ (List.mem_cons_of_mem _ (List.mem_cons_self ..)))))
        refine ⟨forall₂_eq (JVal.IsArr.both x1 y1 fun x y j => JVal.IsInt.unique), x2.unique y2, x3.unique y3, ?_,
          JVal.IsArr.both x5 y5 fun x y j u w => ?_⟩
        · rw [x4] at y4
          simpa using y4
        · rw [JVal.IsStr] at u w
          rw [u] at w
          simpa using w

/-! ## The output -/

/-- Names that need no escapes. -/
def PlainNames (l : List (List Char × ℤ)) : Prop := ∀ v ∈ l, ∀ c ∈ v.1, JPlain c

/-- **C56.** For all automata with distinct nodes and states of the right length, and all variables with
plain names: the output is one JSON text, and read by the grammar of JSON it is the documented description
of the variables and the automaton. (By `json_determines` it is the description of no other.) -/
theorem json_dump_reads {E : JsonEnv} (hE : E.Sane) (hs : E.stamp ≠ none) {a : Aut ℤ (List ℤ)} {ev sv : VarList}
    (hev : PlainNames ev) (hsv : PlainNames sv) (ha : ∀ n ∈ a, n.state.length = ev.length + sv.length)
    (hid : (Aut.ids a).Nodup) : ∃ s, jsonDump E a ev sv = .ok s ∧ (∃ j, JsonText j s) ∧
      ∀ j, JsonText j s → j.IsStrategy ev sv a := by
  obtain ⟨stamp, hst⟩ := Option.ne_none_iff_exists'.1 hs
  obtain ⟨t, j7, e7, a7, b7⟩ := jsays_nodes_obj hE ha hid
  obtain ⟨j5, a5, b5⟩ := jsays_map (P := fun (v : List Char × ℤ) (j : JVal) => j.IsVar v) (f := jsonVar false) ev
    fun v hv => jsays_var false (hev v hv)
  obtain ⟨j6, a6, b6⟩ := jsays_map (P := fun (v : List Char × ℤ) (j : JVal) => j.IsVar v) (f := jsonVar true) sv
    fun v hv => jsays_var true (hsv v hv)
  obtain ⟨j1, a1, b1⟩ := jsays_int 1
  have w1 : JWs "\n ".toList := by unfold JWs; decide
  have w2 : JWs "\n\n ".toList := by unfold JWs; decide
  have h7 := member_last (k := "nodes".toList) "\n\n ".toList [] w2 (by decide) a7 jws_nil
  have h6 := member_more (k := "SYS".toList) "\n ".toList w1 (by decide) a6 h7
  have h5 := member_more (k := "ENV".toList) "\n\n ".toList w2 (by decide) a5 h6
  have h4 := member_more (k := "extra".toList) (v := .str []) "\n ".toList w1 (by decide)
    (.str (jstring_plain (x := []) (by simp))) h5
  have h3 := member_more (k := "date".toList) "\n ".toList w1 (by decide) (.str (jstring_plain (hE.stamp stamp hst))) h4
  have h2 := member_more (k := "gr1c".toList) (v := .str gr1cVersion) "\n ".toList w1 (by decide)
    (.str (jstring_plain (by decide))) h3
  have h1 := JSays.obj (member_more (k := "version".toList) [] jws_nil (by decide) a1 h2)
  have key : JsonText (.obj [("version".toList, j1), ("gr1c".toList, .str gr1cVersion), ("date".toList, .str stamp),
      ("extra".toList, .str []), ("ENV".toList, j5), ("SYS".toList, j6), ("nodes".toList, j7)]) ("{\"version\": 1,\n \"gr1c\": \"".toList ++ (gr1cVersion ++
        ("\",\n \"date\": \"".toList ++ (stamp ++ ("\",\n \"extra\": \"\",\n\n \"ENV\": [".toList ++
        (commaSep (ev.map (jsonVar false)) ++ ("],\n \"SYS\": [".toList ++ (commaSep (sv.map (jsonVar true)) ++
        ("],\n\n \"nodes\": {\n".toList ++ (t ++ "}}\n".toList)))))))))) := by
    refine ⟨[], _, ['\n'], jws_nil, h1, by unfold JWs; decide, ?_⟩
    have e1 : printInt 1 = ['1'] := by decide
    rw [e1]
    simp only [List.nil_append, List.append_assoc, List.cons_append]
    rfl
  refine ⟨_, by unfold jsonDump; rw [hst, e7], ⟨_, key⟩, fun j hj => ?_⟩
  rw [json_unique hj key]
  refine ⟨E.ptr, hE.inj, _, rfl, ?_, ?_⟩
  · show (["version".toList, "gr1c".toList, "date".toList, "extra".toList, "ENV".toList, "SYS".toList,
      "nodes".toList] : List (List Char)).Nodup
    decide
  · intro w hw
    simp only [List.mem_cons, List.not_mem_nil, or_false] at hw
    rcases hw with rfl | rfl | rfl | rfl | rfl | rfl | rfl
    · exact ⟨_, List.mem_cons_self .., b1⟩
    · exact ⟨_, List.mem_cons_of_mem _ (List.mem_cons_self ..), _, rfl⟩
    · exact ⟨_, List.mem_cons_of_mem _ (List.mem_cons_of_mem _ (List.mem_cons_self ..)), _, rfl⟩
    · exact ⟨_, List.mem_cons_of_mem _ (List.mem_cons_of_mem _ (List.mem_cons_of_mem _ (List.mem_cons_self ..))), _, rfl⟩
    · exact ⟨j5, by simp, b5⟩
    · exact ⟨j6, by simp, b6⟩
    · exact ⟨j7, by simp, b7⟩

namespace JsonEx

/-- Pointers printed as `0x` and digits. -/
def env : JsonEnv := ⟨fun id => '0' :: 'x' :: decimal id, some "2014-09-19 18:06:49".toList⟩

theorem plain_dig {c : Char} (h : isDig c = true) : JPlain c := by
  simp only [isDig, Bool.and_eq_true, decide_eq_true_eq] at h
  have h0 : '0'.toNat = 48 := rfl
  refine ⟨?_, ?_, ?_⟩
  · rintro rfl; revert h; decide
  · rintro rfl; revert h; decide
  · have : '0'.toNat ≤ c.toNat := h.1
    omega

theorem env_sane : env.Sane where
  plain := by
    intro id c hc
    simp only [env, List.mem_cons] at hc
    rcases hc with rfl | rfl | hc
    · decide
    · decide
    · exact plain_dig (decimal_digits id c hc)
  inj := by
    intro x y h
    simp only [env, List.cons.injEq, true_and] at h
    rw [← decimal_value x, h, decimal_value]
  stamp := by
    intro s hs
    simp only [env, Option.some.injEq] at hs
    subst hs
    decide

/-- The automaton of `/repo/doc/formats.md` 45-76. -/
def aut : Aut ℤ (List ℤ) :=
  [⟨101090, [0, 0], 0, 1, false, [101040]⟩, ⟨101040, [1, 1], 1, 1, false, [101090]⟩, ⟨101010, [0, 1], 0, 1, true, [101040]⟩]

/-- The text of the documentation, with the present version number. -/
example : jsonDump env aut [(['x'], -1)] [(['y'], -1)] = .ok
    ("{\"version\": 1,\n \"gr1c\": \"0.13.4\",\n \"date\": \"2014-09-19 18:06:49\",\n \"extra\": \"\",\n\n" ++
    " \"ENV\": [{\"x\": \"boolean\"}],\n \"SYS\": [{\"y\": \"boolean\"}],\n\n \"nodes\": {\n" ++
    "\"0x101090\": {\n    \"state\": [0, 0],\n    \"mode\": 0,\n    \"rgrad\": 1,\n    \"initial\": false,\n    \"trans\": [\"0x101040\"] },\n" ++
    "\"0x101040\": {\n    \"state\": [1, 1],\n    \"mode\": 1,\n    \"rgrad\": 1,\n    \"initial\": false,\n    \"trans\": [\"0x101090\"] },\n" ++
    "\"0x101010\": {\n    \"state\": [0, 1],\n    \"mode\": 0,\n    \"rgrad\": 1,\n    \"initial\": true,\n    \"trans\": [\"0x101040\"] }\n}}\n").toList := by
  decide +kernel

/-- The hypotheses of `json_dump_reads` hold. -/
example : ∃ s, jsonDump env aut [(['x'], -1)] [(['y'], 12)] = .ok s ∧ (∃ j, JsonText j s) ∧
    ∀ j, JsonText j s → j.IsStrategy [(['x'], -1)] [(['y'], 12)] aut :=
  json_dump_reads env_sane (by decide) (by unfold PlainNames; decide) (by unfold PlainNames; decide) (by decide) (by decide)

/-- A state that is too short is read beyond its end. -/
example : jsonDump env [⟨1, [0], 0, 0, true, []⟩] [(['x'], -1)] [(['y'], -1)] = .ub := by decide +kernel

end JsonEx

end Gr1c
