import Verif.Spawn.Effects
/-!
# What the programs of the clients do with the answers
-/
namespace Verif
namespace Spawn
open CM

/-- An ending of the program that is not a failure. -/
def Good (q : Prog) : Prop := q = .exit 0 ∨ q = .sleep

theorem Runs.exit {n : Nat} {l : List (Req × Resp)} {q : Prog} (h : Runs (.exit n) l q) : l = [] ∧ q = .exit n := by
  cases h; exact ⟨rfl, rfl⟩

theorem Runs.call {r : Req} {k : Resp → Prog} {l : List (Req × Resp)} {q : Prog} (h : Runs (.call r k) l q) (hq : ∀ k', q ≠ .call r k') :
    ∃ a l', l = (r, a) :: l' ∧ Runs (k a) l' q := by
  cases h with
  | nil => exact absurd rfl (hq k)
  | cons h => exact ⟨_, _, rfl, h⟩

theorem Good.call {q : Prog} (h : Good q) (r : Req) (k : Resp → Prog) : q ≠ .call r k := by
  rcases h with rfl | rfl <;> simp

theorem not_good_one {q : Prog} (h : Good q) {l : List (Req × Resp)} (hr : Runs (.exit 1) l q) : False := by
  have := hr.exit.2
  rcases h with rfl | rfl <;> simp at this

theorem good_setChecked {want : Bool} {n : Name} {p : Param} {k : Prog} {l : List (Req × Resp)} {q : Prog} (g : Good q)
    (h : Runs (setChecked want n p k) l q) : ∃ l1 l2, l = l1 ++ l2 ∧ Runs k l2 q := by
  unfold setChecked at h
  split at h
  · have h9 := h.call (g.call _)
    clear h
    obtain ⟨a, l', e0, h⟩ := h9
    subst e0
    split at h
    · exact ⟨[_], l', rfl, h⟩
    · exact (not_good_one g h).elim
  · exact ⟨[], l, rfl, h⟩

theorem good_setFiles {c : Ctrl} {k : Prog} {l : List (Req × Resp)} {q : Prog} (g : Good q)
    (h : Runs (setFiles c k) l q) : ∃ l1 l2, l = l1 ++ l2 ∧ Runs k l2 q := by
  unfold setFiles at h
  split at h
  · have h9 := h.call (g.call _)
    clear h
    obtain ⟨a, l', e0, h⟩ := h9
    subst e0
    have h9 := good_setChecked g h
    clear h
    obtain ⟨l1, l2, e0, h⟩ := h9
    subst e0
    have h9 := good_setChecked g h
    clear h
    obtain ⟨l3, l4, e0, h⟩ := h9
    subst e0
    exact ⟨(Req.setParam c.name .paramsFile, a) :: (l1 ++ l3), l4, by simp, h⟩
  · exact ⟨[], l, rfl, h⟩

/-- The controller was listed as loaded, or loaded. -/
def WasLoaded (l : List (Req × Resp)) (n : Name) : Prop :=
  (∃ a, (Req.list, a) ∈ l ∧ n ∈ a.names) ∨ ∃ a, (Req.load n, a) ∈ l ∧ a.ok = true

theorem good_loadStep {c : Ctrl} {k : Prog} {l : List (Req × Resp)} {q : Prog} (g : Good q)
    (h : Runs (loadStep c k) l q) : ∃ l1 l2, l = l1 ++ l2 ∧ Runs k l2 q ∧ WasLoaded l1 c.name := by
  unfold loadStep at h
  have h9 := h.call (g.call _)
  clear h
  obtain ⟨a, l', e0, h⟩ := h9
  subst e0
  split at h
  · rename_i hm
    exact ⟨[_], l', rfl, h, .inl ⟨a, by simp, hm⟩⟩
  · have h9 := good_setChecked g h
    clear h
    obtain ⟨l1, l2, e0, h⟩ := h9
    subst e0
    have h9 := good_setFiles g h
    clear h
    obtain ⟨l3, l4, e0, h⟩ := h9
    subst e0
    have h9 := h.call (g.call _)
    clear h
    obtain ⟨b, l5, e0, h⟩ := h9
    subst e0
    split at h
    · rename_i hb
      exact ⟨(Req.list, a) :: (l1 ++ l3 ++ [(Req.load c.name, b)]), l5, by simp, h, .inr ⟨b, by simp, hb⟩⟩
    · exact (not_good_one g h).elim

theorem good_startStep {a : Args} {c : Ctrl} {k : Bool → Prog} {l : List (Req × Resp)} {q : Prog} (g : Good q)
    (h : Runs (startStep a c k) l q) : ∃ l1 l2, l = l1 ++ l2 ∧ Runs (k (c.wantsActive && a.group)) l2 q ∧
      (c.loadOnly = false → ∃ r, (Req.configure c.name, r) ∈ l1 ∧ r.ok = true) ∧
      (c.wantsActive = true → a.group = false → ∃ r, (Req.switch [] [c.name] a.asap, r) ∈ l1 ∧ r.ok = true) := by
  unfold startStep at h
  split at h
  · rename_i hl
    exact ⟨[], l, rfl, by simpa [Ctrl.wantsActive, hl] using h, by simp [hl], by simp [Ctrl.wantsActive, hl]⟩
  rename_i hl
  have h9 := h.call (g.call _)
  clear h
  obtain ⟨r, l', e0, h⟩ := h9
  subst e0
  split at h
  · rename_i hr
    split at h
    · rename_i hi
      exact ⟨[_], l', rfl, by simpa [Ctrl.wantsActive, hi] using h, fun _ => ⟨r, by simp, hr⟩, by simp [Ctrl.wantsActive, hi]⟩
    rename_i hi
    have hw : c.wantsActive = true := by simp [Ctrl.wantsActive, hl, hi]
    split at h
    · rename_i hg
      exact ⟨[_], l', rfl, by simpa [hw, hg] using h, fun _ => ⟨r, by simp, hr⟩, by simp [hg]⟩
    · rename_i hg
      have h9 := h.call (g.call _)
      clear h
      obtain ⟨r2, l2, e0, h⟩ := h9
      subst e0
      split at h
      · rename_i hr2
        exact ⟨[_, _], l2, rfl, by simpa [hg] using h, fun _ => ⟨r, by simp, hr⟩, fun _ _ => ⟨r2, by simp, hr2⟩⟩
      · exact (not_good_one g h).elim
  · exact (not_good_one g h).elim

/-- A successful run of the spawner: what was asked for was answered with OK. -/
theorem good_spawnLoop (a : Args) : ∀ (cs : List Ctrl) (acts : List Name) {l : List (Req × Resp)} {q : Prog}, Good q →
    Runs (spawnLoop a cs acts) l q →
    (∀ c ∈ cs, WasLoaded l c.name ∧ (c.loadOnly = false → ∃ r, (Req.configure c.name, r) ∈ l ∧ r.ok = true) ∧
      (c.wantsActive = true → a.group = false → ∃ r, (Req.switch [] [c.name] a.asap, r) ∈ l ∧ r.ok = true)) ∧
    (a.group = true → acts ++ (cs.filter Ctrl.wantsActive).map (·.name) ≠ [] →
      ∃ r, (Req.switch [] (acts ++ (cs.filter Ctrl.wantsActive).map (·.name)) a.asap, r) ∈ l ∧ r.ok = true) := by
  intro cs
  induction cs with
  | nil =>
    intro acts l q g h
    refine ⟨by simp, ?_⟩
    intro hg ha
    simp only [List.filter_nil, List.map_nil, List.append_nil] at ha ⊢
    unfold spawnLoop groupStep at h
    rw [if_pos ⟨hg, ha⟩] at h
    have h9 := h.call (g.call _)
    clear h
    obtain ⟨r, l', e0, h⟩ := h9
    subst e0
    split at h
    · rename_i hr; exact ⟨r, by simp, hr⟩
    · exact (not_good_one g h).elim
  | cons c t ih =>
    intro acts l q g h
    unfold spawnLoop at h
    have h9 := good_loadStep g h
    clear h
    obtain ⟨l1, l2, e0, h, h1⟩ := h9
    subst e0
    have h9 := good_startStep g h
    clear h
    obtain ⟨l3, l4, e0, h, h2, h3⟩ := h9
    subst e0
    obtain ⟨i1, i2⟩ := ih _ g h
    refine ⟨?_, ?_⟩
    · intro d hd
      rcases List.mem_cons.1 hd with rfl | hd
      · refine ⟨?_, fun hl => ?_, fun hw hg => ?_⟩
        · rcases h1 with ⟨x, hx, hy⟩ | ⟨x, hx, hy⟩
          · exact .inl ⟨x, by simp [hx], hy⟩
          · exact .inr ⟨x, by simp [hx], hy⟩
        · obtain ⟨x, hx, hy⟩ := h2 hl; exact ⟨x, by simp [hx], hy⟩
        · obtain ⟨x, hx, hy⟩ := h3 hw hg; exact ⟨x, by simp [hx], hy⟩
      · obtain ⟨j1, j2, j3⟩ := i1 d hd
        refine ⟨?_, fun hl => ?_, fun hw hg => ?_⟩
        · rcases j1 with ⟨x, hx, hy⟩ | ⟨x, hx, hy⟩
          · exact .inl ⟨x, by simp [hx], hy⟩
          · exact .inr ⟨x, by simp [hx], hy⟩
        · obtain ⟨x, hx, hy⟩ := j2 hl; exact ⟨x, by simp [hx], hy⟩
        · obtain ⟨x, hx, hy⟩ := j3 hw hg; exact ⟨x, by simp [hx], hy⟩
    · intro hg ha
      have e : (if (c.wantsActive && a.group) = true then acts ++ [c.name] else acts) ++ (t.filter Ctrl.wantsActive).map (·.name) =
          acts ++ ((c :: t).filter Ctrl.wantsActive).map (·.name) := by
        rw [hg, List.filter_cons]
        cases c.wantsActive <;> simp
      rw [e] at i2
      obtain ⟨x, hx, hy⟩ := i2 hg ha
      exact ⟨x, by simp [hx], hy⟩

/-! ## Refusals -/

/-- A program that gives up at the first refusal, with exit code 1, and only then. -/
inductive Wary : Prog → Prop
  | exit : Wary (.exit 0)
  | sleep : Wary .sleep
  | call {r : Req} {k : Resp → Prog} (h1 : ∀ a, Refusal r a → k a = .exit 1) (h2 : ∀ a, ¬ Refusal r a → Wary (k a)) :
      Wary (.call r k)

theorem Wary.runs {p : Prog} {l : List (Req × Resp)} {q : Prog} (h : Runs p l q) (w : Wary p) :
    ((∀ x ∈ l, ¬ Refusal x.1 x.2) ∧ Wary q) ∨ ∃ l' r a, l = l' ++ [(r, a)] ∧ Refusal r a ∧ q = .exit 1 ∧ ∀ x ∈ l', ¬ Refusal x.1 x.2 := by
  induction h with
  | nil => exact .inl ⟨by simp, w⟩
  | @cons r k a l q h ih =>
    cases w with
    | call h1 h2 =>
      by_cases hr : Refusal r a
      · rw [h1 a hr] at h
        obtain ⟨rfl, rfl⟩ := h.exit
        exact .inr ⟨[], r, a, rfl, hr, rfl, by simp⟩
      · rcases ih (h2 a hr) with ⟨i1, i2⟩ | ⟨l', r', a', rfl, i1, i2, i3⟩
        · refine .inl ⟨?_, i2⟩
          intro x hx
          rcases List.mem_cons.1 hx with rfl | hx
          · exact hr
          · exact i1 x hx
        · refine .inr ⟨(r, a) :: l', r', a', rfl, i1, i2, ?_⟩
          intro x hx
          rcases List.mem_cons.1 hx with rfl | hx
          · exact hr
          · exact i3 x hx

/-- A call that ends the program unless the answer is OK. -/
theorem wary_ok {r : Req} (h1 : r ≠ .list) (h2 : r ≠ .listHw) (h3 : ∀ n, r ≠ .setParam n .paramsFile) {k : Prog} (w : Wary k) :
    Wary (.call r (fun a => if a.ok then k else .exit 1)) := by
  refine .call ?_ ?_
  · intro a ha; simp [ha.1]
  · intro a ha
    have : a.ok = true := by
      cases h : a.ok with
      | true => rfl
      | false => exact absurd ⟨h, h1, h2, h3⟩ ha
    simpa [this] using w

theorem wary_setChecked (want : Bool) (n : Name) {p : Param} (hp : p ≠ .paramsFile) {k : Prog} (w : Wary k) :
    Wary (setChecked want n p k) := by
  unfold setChecked
  split
  · exact wary_ok (by simp) (by simp) (by simp [hp]) w
  · exact w

theorem wary_loadStep (c : Ctrl) {k : Prog} (w : Wary k) : Wary (loadStep c k) := by
  refine .call (fun a h => absurd rfl h.2.1) ?_
  intro a _
  split
  · exact w
  · refine wary_setChecked _ _ (by simp) ?_
    have hl : Wary (.call (.load c.name) (fun b => if b.ok then k else .exit 1)) := wary_ok (by simp) (by simp) (by simp) w
    unfold setFiles
    split
    · refine .call (fun a h => absurd rfl (h.2.2.2 _)) (fun a _ => ?_)
      exact wary_setChecked _ _ (by simp) (wary_setChecked _ _ (by simp) hl)
    · exact hl

theorem wary_finish (a : Args) : Wary (finish a) := by
  unfold finish; split
  · exact .sleep
  · exact .exit

theorem wary_spawnLoop (a : Args) : ∀ (cs : List Ctrl) (acts : List Name), Wary (spawnLoop a cs acts) := by
  intro cs
  induction cs with
  | nil =>
    intro acts
    unfold spawnLoop groupStep
    split
    · exact wary_ok (by simp) (by simp) (by simp) (wary_finish a)
    · exact wary_finish a
  | cons c t ih =>
    intro acts
    unfold spawnLoop
    refine wary_loadStep c ?_
    unfold startStep
    split
    · exact ih _
    · refine wary_ok (by simp) (by simp) (by simp) ?_
      split
      · exact ih _
      split
      · exact ih _
      · exact wary_ok (by simp) (by simp) (by simp) (ih _)

/-! ## Which requests are sent -/

/-- Every request of the program has the property, given the answers accepted before it. -/
inductive Asks (P : List (Req × Resp) → Req → Prop) : List (Req × Resp) → Prog → Prop
  | exit {h : List (Req × Resp)} {n : Nat} : Asks P h (.exit n)
  | sleep {h : List (Req × Resp)} : Asks P h .sleep
  | call {h : List (Req × Resp)} {r : Req} {k : Resp → Prog} (h1 : P h r) (h2 : ∀ a, Asks P (h ++ [(r, a)]) (k a)) :
      Asks P h (.call r k)

theorem Asks.runs {P : List (Req × Resp) → Req → Prop} {p : Prog} {l : List (Req × Resp)} {q : Prog} (hr : Runs p l q) :
    ∀ {h}, Asks P h p → Asks P (h ++ l) q := by
  induction hr with
  | nil => intro h w; simpa using w
  | cons _ ih =>
    intro h w
    cases w with
    | call h1 h2 => have := ih (h2 _); simpa using this

/-- The rules of the spawner: what it may ask for, given the answers so far. -/
def SpawnRule (a : Args) (h : List (Req × Resp)) (r : Req) : Prop :=
  match r with
  | .list => True
  | .setParam n _ | .load n => (∃ c ∈ a.ctrls, c.name = n) ∧ ∃ x, (Req.list, x) ∈ h ∧ n ∉ x.names
  | .configure n => (∃ c ∈ a.ctrls, c.name = n ∧ c.loadOnly = false) ∧ WasLoaded h n
  | .switch d l asap => d = [] ∧ l ≠ [] ∧ asap = a.asap ∧
      ∀ n ∈ l, (∃ c ∈ a.ctrls, c.name = n ∧ c.wantsActive = true) ∧ ∃ x, (Req.configure n, x) ∈ h ∧ x.ok = true
  | _ => False

theorem WasLoaded.mono {h : List (Req × Resp)} {n : Name} (w : WasLoaded h n) (t : List (Req × Resp)) : WasLoaded (h ++ t) n := by
  rcases w with ⟨x, hx, hy⟩ | ⟨x, hx, hy⟩
  · exact .inl ⟨x, by simp [hx], hy⟩
  · exact .inr ⟨x, by simp [hx], hy⟩

theorem asks_setChecked {a : Args} {h : List (Req × Resp)} {want : Bool} {c : Ctrl} {p : Param} {k : Prog} (hc : c ∈ a.ctrls)
    (hn : ∃ x, (Req.list, x) ∈ h ∧ c.name ∉ x.names) (hk : ∀ t, Asks (SpawnRule a) (h ++ t) k) :
    ∀ t, Asks (SpawnRule a) (h ++ t) (setChecked want c.name p k) := by
  intro t
  unfold setChecked
  split
  · refine .call ⟨⟨c, hc, rfl⟩, ?_⟩ (fun b => ?_)
    · obtain ⟨x, h1, h2⟩ := hn; exact ⟨x, by simp [h1], h2⟩
    · split
      · have := hk (t ++ [(Req.setParam c.name p, b)]); simpa using this
      · exact .exit
  · exact hk t

theorem asks_loadStep {a : Args} {h : List (Req × Resp)} {c : Ctrl} {k : Prog} (hc : c ∈ a.ctrls)
    (hk : ∀ t, WasLoaded (h ++ t) c.name → Asks (SpawnRule a) (h ++ t) k) :
    Asks (SpawnRule a) h (loadStep c k) := by
  refine .call trivial (fun b => ?_)
  split
  · rename_i hm
    exact hk _ (.inl ⟨b, by simp, hm⟩)
  · rename_i hm
    have hn : ∃ x, (Req.list, x) ∈ h ++ [(Req.list, b)] ∧ c.name ∉ x.names := ⟨b, by simp, hm⟩
    have hl : ∀ t, Asks (SpawnRule a) (h ++ [(Req.list, b)] ++ t) (.call (.load c.name) (fun b => if b.ok then k else .exit 1)) := by
      intro t
      refine .call ⟨⟨c, hc, rfl⟩, ?_⟩ (fun d => ?_)
      · obtain ⟨x, h1, h2⟩ := hn; exact ⟨x, by simp at h1 ⊢; tauto, h2⟩
      · split
        · rename_i hd
          have := hk ([(Req.list, b)] ++ t ++ [(Req.load c.name, d)]) (.inr ⟨d, by simp, hd⟩)
          simpa using this
        · exact .exit
    have hf : ∀ t, Asks (SpawnRule a) (h ++ [(Req.list, b)] ++ t) (setFiles c (.call (.load c.name) (fun b => if b.ok then k else .exit 1))) := by
      intro t
      unfold setFiles
      split
      · refine .call ⟨⟨c, hc, rfl⟩, ?_⟩ (fun d => ?_)
        · obtain ⟨x, h1, h2⟩ := hn; exact ⟨x, by simp at h1 ⊢; tauto, h2⟩
        · have := asks_setChecked (want := c.hasType) (p := .type) hc hn (asks_setChecked (want := c.hasFallbacks) (p := .fallbacks) hc hn hl)
            (t ++ [(Req.setParam c.name .paramsFile, d)])
          simpa using this
      · exact hl t
    have := asks_setChecked (want := c.rosArgs) (p := .nodeOptions) hc hn hf []
    simpa using this

theorem asks_spawnLoop (a : Args) : ∀ (cs : List Ctrl) (acts : List Name) (h : List (Req × Resp)), (∀ c ∈ cs, c ∈ a.ctrls) →
    (∀ n ∈ acts, (∃ c ∈ a.ctrls, c.name = n ∧ c.wantsActive = true) ∧ ∃ x, (Req.configure n, x) ∈ h ∧ x.ok = true) →
    Asks (SpawnRule a) h (spawnLoop a cs acts) := by
  intro cs
  have fin : ∀ h, Asks (SpawnRule a) h (finish a) := by
    intro h; unfold finish; split
    · exact .sleep
    · exact .exit
  induction cs with
  | nil =>
    intro acts h _ hacts
    unfold spawnLoop groupStep
    split
    · rename_i hg
      refine .call ⟨rfl, hg.2, rfl, hacts⟩ (fun b => ?_)
      split
      · exact fin _
      · exact .exit
    · exact fin _
  | cons c t ih =>
    intro acts h hcs hacts
    have hc := hcs c (by simp)
    have ht : ∀ d ∈ t, d ∈ a.ctrls := fun d hd => hcs d (by simp [hd])
    have hmono : ∀ u, ∀ n ∈ acts, (∃ c ∈ a.ctrls, c.name = n ∧ c.wantsActive = true) ∧ ∃ x, (Req.configure n, x) ∈ h ++ u ∧ x.ok = true := by
      intro u n hn
      obtain ⟨h1, x, h2, h3⟩ := hacts n hn
      exact ⟨h1, x, by simp [h2], h3⟩
    unfold spawnLoop
    refine asks_loadStep hc ?_
    intro u hu
    unfold startStep
    split
    · exact ih _ _ ht (hmono u)
    · rename_i hl
      refine .call ⟨⟨c, hc, rfl, by simpa using hl⟩, hu⟩ (fun b => ?_)
      dsimp only
      split
      · rename_i hb
        have hconf : ∃ x, (Req.configure c.name, x) ∈ h ++ u ++ [(Req.configure c.name, b)] ∧ x.ok = true := ⟨b, by simp, hb⟩
        have hm := hmono (u ++ [(Req.configure c.name, b)])
        rw [← List.append_assoc] at hm
        split
        · exact ih _ _ ht hm
        rename_i hi
        have hw : c.wantsActive = true := by simp [Ctrl.wantsActive, hl, hi]
        split
        · refine ih _ _ ht ?_
          intro n hn
          simp only [if_true, List.mem_append, List.mem_singleton] at hn
          rcases hn with hn | rfl
          · exact hm n hn
          · exact ⟨⟨c, hc, rfl, hw⟩, hconf⟩
        · refine .call ⟨rfl, by simp, rfl, ?_⟩ (fun d => ?_)
          · intro n hn
            simp only [List.mem_singleton] at hn
            subst hn
            exact ⟨⟨c, hc, rfl, hw⟩, hconf⟩
          · split
            · refine ih _ _ ht ?_
              have := hmono (u ++ [(Req.configure c.name, b)] ++ [(Req.switch [] [c.name] a.asap, d)])
              simpa using this
            · exact .exit
      · exact .exit

/-- The rules of an interrupted spawner. -/
def KillRule (a : Args) (h : List (Req × Resp)) (r : Req) : Prop :=
  a.unloadOnKill = true ∧
  match r with
  | .switch d l _ => d = a.killed ∧ l = [] ∧ h = []
  | .unload n => n ∈ a.killed ∧ ∃ x asap, (Req.switch a.killed [] asap, x) ∈ h ∧ x.ok = true
  | _ => False

theorem asks_unloadLoop (a : Args) (hu : a.unloadOnKill = true) : ∀ (ns : List Name) (b : Bool) (h : List (Req × Resp)),
    (∀ n ∈ ns, n ∈ a.killed) → (∃ x asap, (Req.switch a.killed [] asap, x) ∈ h ∧ x.ok = true) →
    Asks (KillRule a) h (unloadLoop ns b) := by
  intro ns
  induction ns with
  | nil => intro b h _ _; exact .exit
  | cons n t ih =>
    intro b h h1 h2
    refine .call ⟨hu, h1 n (by simp), h2⟩ (fun r => ?_)
    refine ih _ _ (fun m hm => h1 m (by simp [hm])) ?_
    obtain ⟨x, s, hx, ho⟩ := h2
    exact ⟨x, s, by simp [hx], ho⟩

theorem asks_onInterrupt (a : Args) : Asks (KillRule a) [] (onInterrupt a) := by
  unfold onInterrupt
  dsimp only
  split
  · rename_i hk
    refine .call ⟨hk.1, rfl, rfl, rfl⟩ (fun r => ?_)
    split
    · rename_i hr
      exact asks_unloadLoop a hk.1 _ _ _ (fun _ h => h) ⟨r, a.asap, by simp [Args.killed], hr⟩
    · exact .exit
  · exact .exit

theorem good_unloadLoop : ∀ (ns : List Name) (b : Bool) {l : List (Req × Resp)}, Runs (unloadLoop ns b) l (.exit 0) →
    b = true ∧ ∀ n ∈ ns, ∃ x, (Req.unload n, x) ∈ l ∧ x.ok = true := by
  intro ns
  induction ns with
  | nil =>
    intro b l h
    have := h.exit.2
    cases b
    · simp at this
    · simp
  | cons n t ih =>
    intro b l h
    have h9 := h.call (by simp)
    clear h
    obtain ⟨x, l', e0, h⟩ := h9
    subst e0
    obtain ⟨h1, h2⟩ := ih _ h
    simp only [Bool.and_eq_true] at h1
    refine ⟨h1.1, ?_⟩
    intro m hm
    rcases List.mem_cons.1 hm with rfl | hm
    · exact ⟨x, by simp, h1.2⟩
    · obtain ⟨y, h3, h4⟩ := h2 m hm; exact ⟨y, by simp [h3], h4⟩

theorem good_onInterrupt {a : Args} (hu : a.unloadOnKill = true) {l : List (Req × Resp)} (h : Runs (onInterrupt a) l (.exit 0)) :
    ∀ n ∈ a.killed, ∃ x, (Req.unload n, x) ∈ l ∧ x.ok = true := by
  unfold onInterrupt at h
  dsimp only at h
  split at h
  · have h9 := h.call (by simp)
    clear h
    obtain ⟨r, l', e0, h⟩ := h9
    subst e0
    split at h
    · intro n hn
      obtain ⟨y, h3, h4⟩ := (good_unloadLoop _ _ h).2 n hn
      exact ⟨y, by simp [h3], h4⟩
    · have := h.exit.2; simp at this
  · rename_i hk
    intro n hn
    exfalso
    apply hk
    exact ⟨hu, List.ne_nil_of_mem hn⟩

theorem good_unspawnLoop : ∀ (ns : List Name) {l : List (Req × Resp)}, Runs (unspawnLoop ns) l (.exit 0) →
    ∀ n ∈ ns, ∃ x, (Req.unload n, x) ∈ l ∧ x.ok = true := by
  intro ns
  induction ns with
  | nil => simp
  | cons n t ih =>
    intro l h
    have h9 := h.call (by simp)
    clear h
    obtain ⟨x, l', e0, h⟩ := h9
    subst e0
    split at h
    · rename_i hx
      intro m hm
      rcases List.mem_cons.1 hm with rfl | hm
      · exact ⟨x, by simp, hx⟩
      · obtain ⟨y, h3, h4⟩ := ih h m hm; exact ⟨y, by simp [h3], h4⟩
    · have := h.exit.2; simp at this

theorem hwLoop_code (target : LState) : ∀ (hs : List Name) {l : List (Req × Resp)} {n : Nat}, Runs (hwLoop target hs) l (.exit n) → n = 0 := by
  intro hs
  induction hs with
  | nil => intro l n h; have := h.exit.2; simpa using this
  | cons h0 t ih =>
    intro l n h
    have h9 := h.call (by simp)
    clear h
    obtain ⟨x, l', e0, h⟩ := h9
    subst e0
    split at h
    · have h9 := h.call (by simp)
      clear h
      obtain ⟨y, l'', e0, h⟩ := h9
      subst e0
      exact ih h
    · exact ih h

end Spawn
end Verif
