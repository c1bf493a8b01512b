import Verif.Names.Model
import Mathlib.Tactic.IntervalCases
import Mathlib.Data.List.Chain
/-!
# C79: prefixes of frames and names of nodes
-/
namespace Verif
namespace Names

/-! ## Specification -/

/-- The parts of a name, with the part being read. -/
def partsFrom (cur : Text) : Text → List Text
  | [] => if cur = [] then [] else [cur]
  | c :: t => if c = '/' then (if cur = [] then partsFrom [] t else cur :: partsFrom [] t) else partsFrom (cur ++ [c]) t

/-- Specification: the parts of a name between slashes. -/
def parts (t : Text) : List Text := partsFrom [] t

/-- Specification: what a prefix means: itself, with the namespace for its first '~'. -/
def Means (pre ns full : Text) : Prop := ('~' ∉ pre ∧ full = pre) ∨ ∃ a b, pre = a ++ '~' :: b ∧ '~' ∉ a ∧ full = a ++ ns ++ b

/-! ## Proofs -/

theorem fill_means (ns pre : Text) : Means pre ns (fill ns pre) := by
  induction pre with
  | nil => exact .inl ⟨List.not_mem_nil, rfl⟩
  | cons c t ih =>
    unfold fill
    by_cases h : c = '~'
    · rw [if_pos h]
      exact .inr ⟨[], t, by rw [h]; rfl, List.not_mem_nil, rfl⟩
    · rw [if_neg h]
      rcases ih with ⟨h1, h2⟩ | ⟨a, b, h1, h2, h3⟩
      · exact .inl ⟨by simp [h1, Ne.symm h], by rw [h2]⟩
      · refine .inr ⟨c :: a, b, by rw [h1]; rfl, by simp [h2, Ne.symm h], by rw [h3]; rfl⟩

theorem means_fill {pre ns full : Text} (h : Means pre ns full) : full = fill ns pre := by
  have key : ∀ a : Text, '~' ∉ a → ∀ b, fill ns (a ++ b) = a ++ fill ns b := by
    intro a
    induction a with
    | nil => intros; rfl
    | cons c t ih =>
      intro h b
      simp only [List.mem_cons, not_or] at h
      rw [List.cons_append, fill, if_neg (Ne.symm h.1), ih h.2 b]
      rfl
  rcases h with ⟨h1, h2⟩ | ⟨a, b, h1, h2, h3⟩
  · have := key pre h1 []
    simp only [List.append_nil] at this
    rw [this, h2]; simp [fill]
  · rw [h1, key a h2, h3, fill, if_pos rfl, List.append_assoc]

theorem partsFrom_close (cur t : Text) (f : Text) (h : t = [] ∨ t.getLast? = some '/') (hc : t = [] → cur = []) :
    partsFrom cur (t ++ f) = partsFrom cur t ++ partsFrom [] f := by
  induction t generalizing cur with
  | nil => rw [hc rfl]; simp [partsFrom]
  | cons c u ih =>
    have hu : u = [] ∨ u.getLast? = some '/' := by
      cases u with
      | nil => exact .inl rfl
      | cons d v =>
        right
        rcases h with h | h
        · cases h
        · simpa using h
    by_cases hs : c = '/'
    · have := ih [] hu fun _ => rfl
      simp only [List.cons_append, partsFrom, hs, if_true, this]
      split <;> simp
    · have hne : u ≠ [] := by
        rintro rfl
        rcases h with h | h
        · cases h
        · simp only [List.getLast?_singleton, Option.some.injEq] at h
          exact hs h
      simp only [List.cons_append, partsFrom, hs, if_false]
      exact ih _ hu fun e => absurd e hne

theorem partsFrom_slash (cur t : Text) : partsFrom cur (t ++ ['/']) = partsFrom cur t := by
  induction t generalizing cur with
  | nil => simp only [List.nil_append, partsFrom, if_true]
  | cons c u ih => simp only [List.cons_append, partsFrom, ih]

theorem parts_close (t : Text) : parts (close t) = parts t := by
  unfold close
  split
  · rfl
  · exact partsFrom_slash [] t

theorem parts_openUp (t : Text) : parts (openUp t) = parts t := by
  unfold openUp
  split
  · rename_i h
    cases t with
    | nil => rfl
    | cons c u =>
      simp only [List.head?_cons, Option.some.injEq] at h
      simp [parts, partsFrom, h]
  · rfl

theorem close_last (t : Text) : (close t).getLast? = some '/' := by
  unfold close
  split
  · assumption
  · simp

theorem openUp_last (t : Text) (h : t.getLast? = some '/') : openUp t = [] ∨ (openUp t).getLast? = some '/' := by
  unfold openUp
  split
  · cases t with
    | nil => exact .inl rfl
    | cons c u =>
      cases u with
      | nil => exact .inl rfl
      | cons d v => right; simpa using h
  · exact .inr h

/-- **C79 (prefix).** For every prefix and namespace: the result has the parts of the prefix, with the namespace for its first '~', none lost, split or
merged; and put in front of the name of any frame it adds these parts and leaves the frame's alone. -/
theorem C79_prefix (pre ns r : Text) (h : resolve pre ns = some r) :
    ∃ full, Means pre ns full ∧ parts r = parts full ∧ ∀ frame, parts (r ++ frame) = parts full ++ parts frame := by
  unfold resolve at h
  split at h
  · rename_i h0
    cases h
    exact ⟨[], .inl ⟨by simp [h0], h0.symm⟩, rfl, fun f => by simp [parts, partsFrom]⟩
  · split at h
    · cases h
    · cases h
      have e : parts (openUp (close (fill ns pre))) = parts (fill ns pre) := by rw [parts_openUp, parts_close]
      refine ⟨_, fill_means ns pre, e, fun f => ?_⟩
      rw [← e]
      exact partsFrom_close [] _ f (openUp_last _ (close_last _)) fun _ => rfl

/-- **C79 (no prefix).** Only the empty prefix, and one that is a single slash with the namespace in it, give no prefix at all. -/
theorem C79_empty (pre ns : Text) : resolve pre ns = some [] ↔ pre = [] ∨ Means pre ns ['/'] := by
  unfold resolve
  split
  · rename_i h; simp [h]
  · rename_i h0
    split
    · rename_i h1
      simp only [reduceCtorEq, h0, false_or, false_iff]
      intro h
      have := means_fill h
      rw [h1] at this; cases this
    · rename_i h1
      simp only [Option.some.injEq, h0, false_or]
      constructor
      · intro h
        have : fill ns pre = ['/'] := by
          generalize fill ns pre = t at *
          have hl := close_last t
          unfold openUp at h
          split at h
          · rename_i h3
            have hc : close t = ['/'] := by
              generalize close t = u at *
              cases u with
              | nil => cases h3
              | cons c v => simp_all
            unfold close at hc
            split at hc
            · exact hc
            · cases t with
              | nil => exact absurd rfl h1
              | cons c v => simp at hc
          · rw [h] at hl; cases hl
        rw [← this]; exact fill_means ns pre
      · intro h
        rw [← means_fill h]; rfl

/-- **C79 (defined).** With a namespace, as every node has one, the result is always defined. -/
theorem C79_defined (pre ns : Text) (h : ns ≠ []) : ∃ r, resolve pre ns = some r := by
  unfold resolve
  split
  · exact ⟨_, rfl⟩
  · rename_i h0
    have : fill ns pre ≠ [] := by
      rcases fill_means ns pre with ⟨-, e⟩ | ⟨a, b, -, -, e⟩
      · rw [e]; exact h0
      · rw [e]; simp [h]
    rw [if_neg this]; exact ⟨_, rfl⟩

/-- Without a namespace it is not: '~' leaves an empty string, whose last character is asked for. -/
theorem C79_undefined : resolve "~".toList [] = none := by decide

/-- Full statement, "normalized slashes": with an absolute namespace, the result never begins with a slash (frames of tf2 must not). -/
def RelativeStatement : Prop := ∀ pre ns r : Text, ns.head? = some '/' → resolve pre ns = some r → r.head? ≠ some '/'

/-- **C79 (relative), under a condition.** The result does not begin with a slash if the prefix, with the namespace in it, does not begin with two. -/
theorem C79_relative_partial (pre ns r full : Text) (hm : Means pre ns full) (h2 : full.take 2 ≠ ['/', '/']) (h : resolve pre ns = some r) : r.head? ≠ some '/' := by
  have e := means_fill hm
  subst e
  unfold resolve at h
  split at h
  · cases h; simp
  · split at h
    · cases h
    · rename_i h1
      cases h
      generalize fill ns pre = t at *
      unfold openUp
      cases t with
      | nil => exact absurd rfl h1
      | cons c u =>
        split
        · rename_i h3
          unfold close at h3 ⊢
          split at h3
          · rename_i h4
            rw [if_pos h4]
            simp only [List.head?_cons, Option.some.injEq] at h3
            subst h3
            cases u with
            | nil => simp
            | cons d v =>
              intro h5
              simp only [List.tail_cons, List.head?_cons, Option.some.injEq] at h5
              exact h2 (by simp [h5])
          · rename_i h4
            rw [if_neg h4]
            simp only [List.cons_append, List.head?_cons, Option.some.injEq] at h3
            subst h3
            cases u with
            | nil => exact absurd rfl h4
            | cons d v =>
              intro h5
              simp only [List.cons_append, List.tail_cons, List.head?_cons, Option.some.injEq] at h5
              exact h2 (by simp [h5])
        · assumption

/-- **C79, negation.** In the root namespace "~/arm" becomes "/arm/", and "/~/arm" with the namespace "/ns" becomes "/ns/arm/". -/
theorem C79_relative_false : ¬ RelativeStatement ∧ resolve "~/arm".toList "/".toList = some "/arm/".toList ∧
    resolve "/~/arm".toList "/ns".toList = some "/ns/arm/".toList := by
  refine ⟨fun h => ?_, by decide, by decide⟩
  exact h "~/arm".toList "/".toList "/arm/".toList (by decide) (by decide) (by decide)

/-- **C79 (again).** Resolving a result again changes nothing. -/
theorem C79_again (pre ns r ns' : Text) (h : resolve pre ns = some r) (h1 : '~' ∉ r) (h2 : r.head? ≠ some '/') : resolve r ns' = some r := by
  have hl : r = [] ∨ r.getLast? = some '/' := by
    unfold resolve at h
    split at h
    · cases h; exact .inl rfl
    · split at h
      · cases h
      · cases h; exact openUp_last _ (close_last _)
  have hf : fill ns' r = r := (means_fill (.inl ⟨h1, rfl⟩)).symm
  unfold resolve
  rcases hl with rfl | hl
  · rfl
  · have hne : r ≠ [] := by rintro rfl; cases hl
    rw [if_neg hne, hf, if_neg hne]
    unfold openUp close
    rw [if_pos hl, if_neg h2]

/-! ### Nodes of hardware components -/

/-- Full statement: two components of different names have nodes of different names. -/
def NodesStatement : Prop := ∀ a b : Text, nodeName a = nodeName b → a = b

/-- Specification: lower case, without slashes. -/
def Plain (t : Text) : Prop := ∀ c ∈ t, c ≠ '/' ∧ ¬ ('A'.toNat ≤ c.toNat ∧ c.toNat ≤ 'Z'.toNat)

/-- **C79 (nodes), under a condition.** The node of a component has the name of the component, if that is lower case without slashes; so such components have
different nodes and topics. -/
theorem C79_nodes_partial (a b : Text) (ha : Plain a) (hb : Plain b) : nodeName a = a ∧ (nodeName a = nodeName b → a = b) ∧
    ∀ ns, statusTopic ns a = statusTopic ns b → a = b := by
  have key : ∀ t : Text, Plain t → nodeName t = t := by
    intro t ht
    unfold nodeName Text.toLowerCase
    rw [List.map_map]
    conv_rhs => rw [← List.map_id t]
    refine List.map_congr_left fun c hc => ?_
    have := ht c hc
    simp only [Function.comp_apply, Text.lowerChar, this.2, if_false, this.1, id]
  refine ⟨key a ha, fun h => by rw [key a ha, key b hb] at h; exact h, fun ns h => ?_⟩
  unfold statusTopic at h
  rw [key a ha, key b hb, List.append_assoc, List.append_assoc] at h
  have := List.append_cancel_left h
  simp only [List.cons_append, List.cons.injEq, true_and] at this
  exact List.append_cancel_right this

/-- **C79, negation.** "Arm" and "arm", or "left/arm" and "left_arm", are different components with nodes of the same name, which publish their status on the
same topic. -/
theorem C79_nodes_false : ¬ NodesStatement ∧ ∀ ns, statusTopic ns "Arm".toList = statusTopic ns "arm".toList ∧
    statusTopic ns "left/arm".toList = statusTopic ns "left_arm".toList := by
  refine ⟨fun h => ?_, fun ns => ⟨?_, ?_⟩⟩
  · exact absurd (h "Arm".toList "arm".toList (by decide)) (by decide)
  · unfold statusTopic; rw [show nodeName "Arm".toList = nodeName "arm".toList by decide]
  · unfold statusTopic; rw [show nodeName "left/arm".toList = nodeName "left_arm".toList by decide]

/-- **C79 (characters).** The name of a node has as many characters as that of the component, never a slash or a capital letter; every character that is neither is
handed on, also one that ROS does not allow in names of nodes. -/
theorem C79_node_chars (a : Text) : (nodeName a).length = a.length ∧ Plain (nodeName a) ∧
    ∀ (n : Nat) (c : Char), a[n]? = some c → (c ≠ '/' ∧ ¬ ('A'.toNat ≤ c.toNat ∧ c.toNat ≤ 'Z'.toNat)) → (nodeName a)[n]? = some c := by
  refine ⟨by simp [nodeName, Text.toLowerCase], ?_, ?_⟩
  · intro c hc
    simp only [nodeName, Text.toLowerCase, List.map_map, List.mem_map, Function.comp_apply] at hc
    obtain ⟨d, -, rfl⟩ := hc
    have up : ∀ n, 65 ≤ n → n ≤ 90 → Char.ofNat (n + 32) ≠ '/' ∧ ¬ (65 ≤ (Char.ofNat (n + 32)).toNat ∧ (Char.ofNat (n + 32)).toNat ≤ 90) := by
      intro n h1 h2
      interval_cases n <;> decide
    unfold Text.lowerChar
    by_cases h : 'A'.toNat ≤ d.toNat ∧ d.toNat ≤ 'Z'.toNat
    · simp only [h, and_self, if_true]
      have := up d.toNat h.1 h.2
      rw [if_neg this.1]; exact this
    · simp only [h, if_false]
      split
      · decide
      · rename_i h1; exact ⟨h1, h⟩
  · intro n c hc h
    simp only [nodeName, Text.toLowerCase, List.map_map, List.getElem?_map, hc, Option.map_some, Function.comp_apply, Text.lowerChar, h.2, if_false, h.1]

/-! ## The hypotheses are met -/

example : resolve "/robot3/".toList "/ns".toList = some "robot3/".toList ∧ resolve "~/robot".toList "/ns".toList = some "ns/robot/".toList ∧
    parts "ns/robot/".toList = ["ns".toList, "robot".toList] ∧ parts ("ns/robot/".toList ++ "base".toList) = ["ns".toList, "robot".toList, "base".toList] := by
  decide

example : Means "~/robot".toList "/ns".toList "/ns/robot".toList ∧ ("/ns/robot".toList).take 2 ≠ ['/', '/'] := by
  exact ⟨.inr ⟨[], "/robot".toList, rfl, by decide, by decide⟩, by decide⟩

example : Plain "left_arm".toList ∧ nodeName "Left/Arm-1".toList = "left_arm-1".toList := by unfold Plain; decide

/-! ### Topics -/

/-- No empty part: no two slashes after each other. -/
def NoDouble (t : Text) : Prop := t.IsChain fun a b => ¬ (a = '/' ∧ b = '/')

/-- **C79 (topics).** In the root namespace and in any namespace without empty parts the topic of the status is absolute, has no empty part and ends with the name of the
node and `hardware_status`. -/
theorem C79_topic (ns name : Text) (h : ns = ['/'] ∨ (NoDouble ns ∧ ns.head? = some '/' ∧ ns.getLast? ≠ some '/')) (hn : name ≠ []) :
    NoDouble (statusTopic ns name) ∧ (statusTopic ns name).head? = some '/' ∧
    ∃ pre, (pre = [] ∨ pre = ns) ∧ statusTopic ns name = pre ++ "/".toList ++ nodeName name ++ "/hardware_status".toList := by
  have hl := (C79_node_chars name).1
  have hp := (C79_node_chars name).2.1
  have e1 : ns = ['/'] → statusTopic ns name = '/' :: nodeName name ++ "/hardware_status".toList := by rintro rfl; rfl
  have e2 : ns ≠ ['/'] → statusTopic ns name = ns ++ ('/' :: nodeName name ++ "/hardware_status".toList) := by
    intro h; unfold statusTopic; rw [if_neg h, List.append_assoc]
  generalize nodeName name = m at *
  have hm : m ≠ [] := by intro e; subst e; exact hn (List.length_eq_zero_iff.1 hl.symm)
  have c1 : NoDouble m := by
    clear hl hm hn e1 e2
    unfold NoDouble
    induction m with
    | nil => exact .nil
    | cons a t ih =>
      cases t with
      | nil => exact .singleton _
      | cons b t => exact .cons_cons (fun h => (hp a (by simp)).1 h.1) (ih fun c hc => hp c (List.mem_cons_of_mem _ hc))
  have c2 : NoDouble ('/' :: m ++ "/hardware_status".toList) := by
    unfold NoDouble
    rw [List.isChain_append]
    refine ⟨?_, by decide, ?_⟩
    · cases m with
      | nil => exact absurd rfl hm
      | cons a t => exact .cons_cons (fun h => (hp a (by simp)).1 h.2) c1
    · intro x hx y _ hxy
      rw [List.getLast?_cons_of_ne_nil hm] at hx
      exact (hp x (List.mem_of_getLast? hx)).1 hxy.1
  rcases h with rfl | ⟨h1, h2, h3⟩
  · rw [e1 rfl]
    exact ⟨c2, rfl, [], .inl rfl, rfl⟩
  · rw [e2 (by rintro rfl; exact h3 rfl)]
    refine ⟨?_, ?_, ns, .inr rfl, by simp⟩
    · unfold NoDouble
      rw [List.isChain_append]
      refine ⟨h1, c2, fun x hx y _ hxy => h3 ?_⟩
      rw [hxy.1] at hx; exact hx
    · rw [List.head?_append, h2]; rfl

example : statusTopic "/".toList "Arm".toList = "/arm/hardware_status".toList ∧
    statusTopic "/left".toList "Arm".toList = "/left/arm/hardware_status".toList := by decide

end Names
end Verif
