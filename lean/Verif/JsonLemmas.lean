import Verif.JsonSpec
import Verif.JsonDump
import Verif.Render
import Verif.AutomatonLemmas

/-!
# Lemmas: the texts written by `json_aut_dump` are JSON
-/

namespace Gr1c

theorem decimal_head (n : ℕ) : decimal n = ['0'] ∨ (decimal n).head? ≠ some '0' := by
  induction n using Nat.strongRecOn with
  | ind n ih =>
    rcases Nat.lt_or_ge n 10 with h | h
    · unfold decimal
      rw [Nat.toDigits_of_lt_base h]
      interval_cases n <;> first | exact Or.inl rfl | (right; decide)
    · right
      unfold decimal
      rw [Nat.toDigits_of_base_le (by omega) h]
      have hne := decimal_ne_nil (n / 10)
      unfold decimal at hne
      rw [List.head?_append_of_ne_nil _ hne]
      rcases ih (n / 10) (by omega) with h0 | h0
      · exfalso
        have := decimal_value (n / 10)
        rw [h0] at this
        simp [digitVal] at this
        omega
      · exact h0

theorem jnumber_printInt (v : ℤ) : JNumber (printInt v) := by
  have hi : ∀ n, JInt (decimal n) := fun n => by
    rcases decimal_head n with h | h
    · exact Or.inl h
    · exact Or.inr ⟨⟨decimal_ne_nil n, decimal_digits n⟩, h⟩
  unfold printInt
  split
  · exact ⟨['-'], decimal (-v).toNat, [], [], Or.inr rfl, hi _, Or.inl rfl, Or.inl rfl, by simp⟩
  · exact ⟨[], decimal v.toNat, [], [], Or.inl rfl, hi _, Or.inl rfl, Or.inl rfl, by simp⟩

theorem jsays_int (v : ℤ) : ∃ j : JVal, JSays (.value j) (printInt v) ∧ j.IsInt v :=
  ⟨_, .num (jnumber_printInt v), _, rfl, intText_printInt v⟩

theorem jstring_plain {x : List Char} (h : ∀ c ∈ x, JPlain c) : JString x ('"' :: (x ++ ['"'])) := by
  refine ⟨x, ?_, rfl⟩
  induction x with
  | nil => exact .nil
  | cons c x ih => exact .plain c (h c (List.mem_cons_self ..)) (ih fun d hd => h d (List.mem_cons_of_mem _ hd))

theorem jws_nil : JWs [] := by intro c hc; cases hc

theorem jws_space : JWs [' '] := by intro c hc; simp at hc; subst hc; rfl

/-- Elements with commas. -/
theorem jsays_elems {vs : List JVal} {ts : List (List Char)} (h : List.Forall₂ (fun v t => JSays (.value v) t) vs ts)
    (hne : vs ≠ []) (a : List Char) (ha : JWs a) : JSays (.elems vs) (a ++ commaSep ts) := by
  induction h generalizing a with
  | nil => exact absurd rfl hne
  | @cons v t vs ts h hs ih =>
    cases hs with
    | nil =>
      have := JSays.elem a [] ha h jws_nil
      simpa [commaSep] using this
    | @cons v' t' vs ts h' hs' =>
      have := JSays.elemCons a [] ha h jws_nil (ih (by simp) [' '] jws_space)
      simpa [commaSep] using this

theorem jsays_array {vs : List JVal} {ts : List (List Char)} (h : List.Forall₂ (fun v t => JSays (.value v) t) vs ts) :
    JSays (.value (.arr vs)) ('[' :: (commaSep ts ++ [']'])) := by
  by_cases hne : vs = []
  · subst hne
    cases h
    exact .arr0 [] jws_nil
  · exact .arr (by simpa using jsays_elems h hne [] jws_nil)

/-- An array made of texts for the entries of a list. -/
theorem jsays_map {α : Type} {P : α → JVal → Prop} {f : α → List Char}  (l : List α)
    (h : ∀ x ∈ l, ∃ j, JSays (.value j) (f x) ∧ P x j) :
    ∃ j : JVal, JSays (.value j) ('[' :: (commaSep (l.map f) ++ [']'])) ∧ j.IsArr P l := by
  have key : ∃ vs, List.Forall₂ (fun v t => JSays (.value v) t) vs (l.map f) ∧ List.Forall₂ P l vs := by
    induction l with
    | nil => exact ⟨[], .nil, .nil⟩
    | cons x l ih =>
      obtain ⟨j, h1, h2⟩ := h x (List.mem_cons_self ..)
      obtain ⟨vs, h3, h4⟩ := ih fun y hy => h y (List.mem_cons_of_mem _ hy)
      exact ⟨j :: vs, .cons h1 h3, .cons h2 h4⟩
  obtain ⟨vs, h1, h2⟩ := key
  exact ⟨_, jsays_array h1, vs, rfl, h2⟩

/-- A last member as the code writes it. -/
theorem member_last {k s : List Char} {v : JVal} (a d : List Char) (ha : JWs a) (hk : ∀ c ∈ k, JPlain c)
    (h : JSays (.value v) s) (hd : JWs d) :
    JSays (.members [(k, v)]) (a ++ ('"' :: (k ++ ('"' :: ':' :: ' ' :: (s ++ d))))) := by
  have := JSays.member a [] [' '] d ha (jstring_plain hk) jws_nil jws_space h hd
  simpa using this

/-- A member as the code writes it, with others following. -/
theorem member_more {k s r : List Char} {v : JVal} {ms : List (List Char × JVal)} (a : List Char) (ha : JWs a)
    (hk : ∀ c ∈ k, JPlain c) (h : JSays (.value v) s) (hs : JSays (.members ms) r) :
    JSays (.members ((k, v) :: ms)) (a ++ ('"' :: (k ++ ('"' :: ':' :: ' ' :: (s ++ ',' :: r))))) := by
  have := JSays.memberCons a [] [' '] [] ha (jstring_plain hk) jws_nil jws_space h jws_nil hs
  simpa using this

/-- A variable. -/
theorem jsays_var (gap : Bool) {v : List Char × ℤ} (hv : ∀ c ∈ v.1, JPlain c) :
    ∃ j : JVal, JSays (.value j) (jsonVar gap v) ∧ j.IsVar v := by
  by_cases h0 : 0 ≤ v.2
  · obtain ⟨j1, a1, b1⟩ := jsays_int 0
    obtain ⟨j2, a2, b2⟩ := jsays_int v.2
    have harr : JSays (.value (.arr [j1, j2])) ('[' :: ((printInt 0 ++ ',' :: ((if gap then [' '] else []) ++ printInt v.2)) ++ [']'])) := by
      refine .arr ?_
      have := JSays.elemCons [] [] jws_nil a1 jws_nil
        (JSays.elem (if gap then [' '] else []) [] (by split; exacts [jws_space, jws_nil]) a2 jws_nil)
      simpa using this
    have hm := JSays.obj (member_last [] [] jws_nil hv harr jws_nil)
    refine ⟨_, ?_, .arr [j1, j2], rfl, ?_⟩
    · have e : jsonVar gap v = '{' :: (([] ++ ('"' :: (v.1 ++ ('"' :: ':' :: ' ' :: (('[' :: ((printInt 0 ++ ',' ::
          ((if gap then [' '] else []) ++ printInt v.2)) ++ [']'])) ++ []))))) ++ ['}']) := by
        unfold jsonVar
        rw [if_pos h0]
        have e0 : printInt 0 = ['0'] := by decide
        rw [e0]
        cases gap
        · show '{' :: '"' :: (v.1 ++ ('"' :: ':' :: ' ' :: ('[' :: '0' :: ',' :: (printInt v.2 ++ [']', '}'])))) = _
          simp
        · show '{' :: '"' :: (v.1 ++ ('"' :: ':' :: ' ' :: ('[' :: '0' :: ',' :: ' ' :: (printInt v.2 ++ [']', '}'])))) = _
          simp
      rw [e]
      exact hm
    · rw [if_pos h0]
      exact ⟨_, rfl, .cons b1 (.cons b2 .nil)⟩
  · have hb : JSays (.value (.str "boolean".toList)) ('"' :: ("boolean".toList ++ ['"'])) :=
      .str (jstring_plain (by decide))
    have hm := JSays.obj (member_last [] [] jws_nil hv hb jws_nil)
    refine ⟨_, ?_, .str "boolean".toList, rfl, ?_⟩
    · have e : jsonVar gap v = '{' :: (([] ++ ('"' :: (v.1 ++ ('"' :: ':' :: ' ' ::
          (('"' :: ("boolean".toList ++ ['"'])) ++ []))))) ++ ['}']) := by
        unfold jsonVar
        rw [if_neg h0]
        show '{' :: '"' :: (v.1 ++ ('"' :: ':' :: ' ' :: '"' :: ("boolean".toList ++ ['"', '}']))) = _
        simp
      rw [e]
      exact hm
    · rw [if_neg h0]
      rfl

/-- What the theorems ask of the C library: pointers are printed with plain characters, different ones
differently. -/
structure JsonEnv.Sane (E : JsonEnv) : Prop where
  plain : ∀ id, ∀ c ∈ E.ptr id, JPlain c
  inj : ∀ x y, E.ptr x = E.ptr y → x = y
  stamp : ∀ s, E.stamp = some s → ∀ c ∈ s, JPlain c

theorem jws_lines : JWs "\n    ".toList := by unfold JWs; decide

theorem jsays_bool (b : Bool) : JSays (.value (.bool b)) (if b then "true".toList else "false".toList) := by
  cases b
  · exact .false
  · exact .true

/-- A node. -/
theorem jsays_node {E : JsonEnv} (hE : E.Sane) {len : ℕ} {n : ANode ℤ (List ℤ)} (hn : n.state.length = len) :
    ∃ t j, jsonNode E len n = some (jsonPtr E n.id ++ (':' :: ' ' :: t)) ∧ JSays (.value j) t ∧ j.IsNode E.ptr n := by
  obtain ⟨j1, a1, b1⟩ := jsays_map (P := fun (x : ℤ) (j : JVal) => j.IsInt x) n.state fun x _ => jsays_int x
  obtain ⟨j2, a2, b2⟩ := jsays_int n.mode
  obtain ⟨j3, a3, b3⟩ := jsays_int n.rgrad
  obtain ⟨j5, a5, b5⟩ := jsays_map (P := fun (id : ℕ) (j : JVal) => j.IsStr (E.ptr id)) (f := jsonPtr E) n.trans
    fun x _ => ⟨_, .str (jstring_plain (hE.plain x)), rfl⟩
  have h5 := member_last (k := "trans".toList) "\n    ".toList [' '] jws_lines (by decide) a5 jws_space
  have h4 := member_more (k := "initial".toList) "\n    ".toList jws_lines (by decide) (jsays_bool n.initial) h5
  have h3 := member_more (k := "rgrad".toList) "\n    ".toList jws_lines (by decide) a3 h4
  have h2 := member_more (k := "mode".toList) "\n    ".toList jws_lines (by decide) a2 h3
  have h1 := JSays.obj (member_more (k := "state".toList) "\n    ".toList jws_lines (by decide) a1 h2)
  refine ⟨_, _, ?_, h1, _, rfl, ?_, ?_⟩
  · unfold jsonNode
    rw [if_neg (by omega), List.take_of_length_le (by omega)]
    have e4 : (if n.initial then "    \"initial\": true,\n".toList else "    \"initial\": false,\n".toList) =
        "    \"initial\": ".toList ++ ((if n.initial then "true".toList else "false".toList) ++ [',', '\n']) := by
      cases n.initial <;> rfl
    rw [e4]
    congr 2
    show ':' :: ' ' :: '{' :: '\n' :: ' ' :: ' ' :: ' ' :: ' ' :: '"' :: 's' :: 't' :: 'a' :: 't' :: 'e' :: '"' :: ':' :: ' ' :: '[' :: _ = _
    simp
  · show (["state".toList, "mode".toList, "rgrad".toList, "initial".toList, "trans".toList] : List (List Char)).Nodup
    decide
  · intro w hw
    simp only [List.mem_cons, List.not_mem_nil, or_false] at hw
    rcases hw with rfl | rfl | rfl | rfl | rfl
    · exact ⟨j1, by simp, b1⟩
    · exact ⟨j2, by simp, b2⟩
    · exact ⟨j3, by simp, b3⟩
    · exact ⟨.bool n.initial, by simp, rfl⟩
    · exact ⟨j5, by simp, b5⟩

/-- The nodes. -/
theorem jsays_nodes {E : JsonEnv} (hE : E.Sane) {len : ℕ} {a : Aut ℤ (List ℤ)} (ha : ∀ n ∈ a, n.state.length = len)
    (hne : a ≠ []) : ∃ t ms, jsonNodes E len a = some t ∧ JSays (.members ms) ('\n' :: t) ∧
      List.Forall₂ (fun n (m : List Char × JVal) => m.1 = E.ptr n.id ∧ m.2.IsNode E.ptr n) a ms := by
  induction a with
  | nil => exact absurd rfl hne
  | cons n a ih =>
    obtain ⟨t, j, h1, h2, h3⟩ := jsays_node hE (ha n (List.mem_cons_self ..))
    have hnl : JWs ['\n'] := by unfold JWs; decide
    cases a with
    | nil =>
      have := member_last ['\n'] ['\n'] hnl (hE.plain n.id) h2 hnl
      refine ⟨(jsonPtr E n.id ++ (':' :: ' ' :: t)) ++ ['\n'], [(E.ptr n.id, j)], by simp only [jsonNodes, h1, Option.map_some], ?_, .cons ⟨rfl, h3⟩ .nil⟩
      simpa [jsonPtr] using this
    | cons m r =>
      obtain ⟨u, ms, q1, q2, q3⟩ := ih (fun x hx => ha x (List.mem_cons_of_mem _ hx)) (by simp)
      have := member_more ['\n'] hnl (hE.plain n.id) h2 q2
      refine ⟨(jsonPtr E n.id ++ (':' :: ' ' :: t)) ++ (",\n".toList ++ u), (E.ptr n.id, j) :: ms, by simp only [jsonNodes, h1, q1], ?_, .cons ⟨rfl, h3⟩ q3⟩
      simpa [jsonPtr] using this

theorem jsays_nodes_obj {E : JsonEnv} (hE : E.Sane) {len : ℕ} {a : Aut ℤ (List ℤ)} (ha : ∀ n ∈ a, n.state.length = len)
    (hid : (Aut.ids a).Nodup) : ∃ t j, jsonNodes E len a = some t ∧ JSays (.value j) ('{' :: ('\n' :: t ++ ['}'])) ∧
      j.IsNodes E.ptr a := by
  by_cases hne : a = []
  · subst hne
    have hnl : JWs ['\n'] := by unfold JWs; decide
    exact ⟨[], .obj [], rfl, .obj0 ['\n'] hnl, [], rfl, by simp, .nil⟩
  · obtain ⟨t, ms, h1, h2, h3⟩ := jsays_nodes hE ha hne
    refine ⟨t, .obj ms, h1, .obj h2, ms, rfl, ?_, h3⟩
    have : ms.map Prod.fst = (Aut.ids a).map E.ptr := by
      clear h1 h2 hid ha hne
      induction h3 with
      | nil => rfl
      | cons h _ ih => rw [List.map_cons, ih, h.1]; rfl
    rw [this]
    exact hid.map (fun x y h => hE.inj x y h)

end Gr1c
