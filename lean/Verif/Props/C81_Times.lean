import Verif.Props.C81_Tools
/-!
# C81: times on the command lines of the hardware spawner and of the unspawner
-/
namespace Verif.Argv

variable {P : Parser TKey} {mine : TKey → Bool} {fl : Str → Bool}

/-- One option. -/
theorem tact_times (s : TNs) (k : TKey) (a : List Str) (s' : TNs) (h : tact fl s k a = .ok s') :
    (∀ x, k = .cmTimeout ∨ k = .switchTimeout → a = [x] → fl x = true) ∧
    ((∀ x, s.cmTimeout = some x → fl x = true) → ∀ x, s'.cmTimeout = some x → fl x = true) ∧
    ((∀ x, s.switchTimeout = some x → fl x = true) → ∀ x, s'.switchTimeout = some x → fl x = true) := by
  unfold tact at h
  split at h
  · obtain rfl := Except.ok.inj h
    exact ⟨by (rintro x (e | e) <;> cases e), id, id⟩
  · split at h
    · obtain rfl := Except.ok.inj h
      rename_i hx
      exact ⟨by rintro y - e; cases e; exact hx, fun _ y e => by cases e; exact hx, id⟩
    · cases h
  · split at h
    · obtain rfl := Except.ok.inj h
      rename_i hx
      exact ⟨by rintro y - e; cases e; exact hx, id, fun _ y e => by cases e; exact hx⟩
    · cases h
  · split at h
    · cases h
    · obtain rfl := Except.ok.inj h
      exact ⟨by (rintro x (e | e) <;> cases e), id, id⟩
  · split at h
    · cases h
    · obtain rfl := Except.ok.inj h
      exact ⟨by (rintro x (e | e) <;> cases e), id, id⟩
  · cases h
  · obtain rfl := Except.ok.inj h
    refine ⟨?_, id, id⟩
    rintro x (rfl | rfl) rfl <;> simp_all

/-- Every time that is taken is a number, and so is the one that is kept. -/
theorem tstrict_times (es : List (Ev TKey)) (s : TNs) (n : Names) (ex : Bool) (r : TNs × List Str) (h : tstrict fl es s n ex = .ok r) :
    (∀ k x, k = .cmTimeout ∨ k = .switchTimeout → Ev.took k [x] ∈ es → fl x = true) ∧
    ((∀ x, s.cmTimeout = some x → fl x = true) → ∀ x, r.1.cmTimeout = some x → fl x = true) ∧
    ((∀ x, s.switchTimeout = some x → fl x = true) → ∀ x, r.1.switchTimeout = some x → fl x = true) := by
  induction es generalizing s n ex with
  | nil =>
    refine ⟨by simp, ?_⟩
    cases n with
    | before => simp [tstrict] at h
    | during l =>
      simp only [tstrict] at h
      split at h <;> simp only [Except.ok.injEq, reduceCtorEq] at h
      subst h; exact ⟨id, id⟩
    | after l =>
      simp only [tstrict] at h
      split at h <;> simp only [Except.ok.injEq, reduceCtorEq] at h
      subst h; exact ⟨id, id⟩
  | cons e t ih =>
    cases e with
    | bad => simp [tstrict] at h
    | took k a =>
      simp only [tstrict] at h
      cases hs : tact fl s k a with
      | error e => rw [hs] at h; simp [Except.bind] at h
      | ok s' =>
        rw [hs] at h
        obtain ⟨h1, h2, h3⟩ := ih s' _ _ h
        obtain ⟨g1, g2, g3⟩ := tact_times s k a s' hs
        refine ⟨fun k' x hk hm => ?_, fun hx => h2 (g2 hx), fun hx => h3 (g3 hx)⟩
        rcases List.mem_cons.mp hm with e | hm
        · cases e
          exact g1 x hk rfl
        · exact h1 k' x hk hm
    | word w =>
      have key : ∃ n', tstrict fl t s n' (match n with | .after _ => true | _ => ex) = .ok r := by
        cases n <;> (simp only [tstrict] at h; exact ⟨_, h⟩)
      obtain ⟨n', h'⟩ := key
      obtain ⟨h1, h2⟩ := ih _ _ _ h'
      exact ⟨fun k x hk hm => h1 k x hk (by simpa using hm), h2⟩
    | sep =>
      have key : ∃ n', tstrict fl t s n' (match n with | .after _ => true | _ => ex) = .ok r := by
        cases n <;> (simp only [tstrict] at h; exact ⟨_, h⟩)
      obtain ⟨n', h'⟩ := key
      obtain ⟨h1, h2⟩ := ih _ _ _ h'
      exact ⟨fun k x hk hm => h1 k x hk (by simpa using hm), h2⟩
    | extra w =>
      simp only [tstrict] at h
      obtain ⟨h1, h2⟩ := ih _ _ _ h
      exact ⟨fun k x hk hm => h1 k x hk (by simpa using hm), h2⟩

/-- The events of settings. -/
theorem ev_settings (g : TGood P mine) (l : List TSetting) (ok : ∀ x ∈ l, x.Ok mine (fun _ => true)) (r : List Str) (x : TSetting)
    (hx : x ∈ l ∨ Ev.took x.key (if ttakes x.key then [x.value] else []) ∈ ev P r) :
    Ev.took x.key (if ttakes x.key then [x.value] else []) ∈ ev P (twords l ++ r) := by
  induction l with
  | nil => simpa [twords] using hx
  | cons y t ih =>
    simp only [twords, List.flatMap_cons, List.append_assoc]
    rw [tev g y (ok y (by simp))]
    rcases hx with h | h
    · rcases List.mem_cons.mp h with rfl | h
      · exact List.mem_cons_self
      · exact List.mem_cons_of_mem _ (ih (fun z hz => ok z (by simp [hz])) (Or.inl h))
    · exact List.mem_cons_of_mem _ (ih (fun z hz => ok z (by simp [hz])) (Or.inr h))

theorem ev_names (g : TGood P mine) (ns : List Str) (hv : ∀ n ∈ ns, Value n) (r : List Str) (e : Ev TKey) (h : e ∈ ev P r) :
    e ∈ ev P (ns ++ r) := by
  induction ns with
  | nil => exact h
  | cons n t ih =>
    have hn := hv n (by simp)
    rw [List.cons_append, ev_pos _ _ _ (value_sep hn) (classify_value _ g.tidy g.shorts _ hn)]
    exact List.mem_cons_of_mem _ (ih (fun n hn => hv n (by simp [hn])))

theorem tline_times (g : TGood P mine) (pre : List TSetting) (ns : List Str) (post : List TSetting) (hv : ∀ n ∈ ns, Value n)
    (okp : ∀ x ∈ pre, x.Ok mine (fun _ => true)) (okq : ∀ x ∈ post, x.Ok mine (fun _ => true)) (x : TSetting) (hx : x ∈ pre ++ post) :
    Ev.took x.key (if ttakes x.key then [x.value] else []) ∈ parse P (tline pre ns post) := by
  have hcalm : Calm P (tline pre ns post) := by
    intro w hw
    rcases List.mem_append.mp hw with hw | hw
    · rcases List.mem_append.mp hw with hw | hw
      · obtain ⟨s, hs, hw⟩ := twords_mem hw
        exact tcalm g s (okp s hs) w hw
      · exact ⟨value_sep (hv w hw), by rw [classify_value _ g.tidy g.shorts _ (hv w hw)]; simp⟩
    · obtain ⟨s, hs, hw⟩ := twords_mem hw
      exact tcalm g s (okq s hs) w hw
  rw [parse_ev _ _ hcalm]
  unfold tline
  rw [List.append_assoc]
  rcases List.mem_append.mp hx with h | h
  · exact ev_settings g pre okp _ x (Or.inl h)
  · refine ev_settings g pre okp _ x (Or.inr (ev_names g ns hv _ _ ?_))
    have := ev_settings g post okq [] x (Or.inl h)
    simpa using this

/-- **C81, times.** Whatever the command line: the time that the hardware spawner waits for the controller manager is a number if one was given, and a
line `[options] names [options]` with a time that is not a number - even if a later one is - ends the program before it asks for anything. -/
theorem C81_hw_times :
    (∀ (args : List Str) (r : HwArgs), hwArgs fl args = .ok r → ∀ t, r.cmTimeout = some t → fl t = true) ∧
    (∀ (pre : List TSetting) (ns : List Str) (post : List TSetting), (∀ n ∈ ns, Value n) → (∀ x ∈ pre ++ post, x.Ok hwKey (fun _ => true)) →
      (∃ x ∈ pre ++ post, x.key = .cmTimeout ∧ fl x.value = false) → ∃ e, hwArgs fl (tline pre ns post) = .error e) := by
  refine ⟨fun args r h => ?_, fun pre ns post hv ok ⟨x, hx, hk, hf⟩ => ?_⟩
  · unfold hwArgs at h
    cases hp : tstrict fl (parse hwParser args) {} .before false with
    | error e => rw [hp] at h; simp [Except.bind] at h
    | ok y =>
      rw [hp] at h
      simp only [Except.bind] at h
      split at h
      · simp only [Except.ok.injEq] at h
        subst h
        exact (tstrict_times _ _ _ _ _ hp).2.1 (by simp)
      · simp at h
  · have hm := tline_times good_hw pre ns post hv (fun y hy => ok y (by simp [hy])) (fun y hy => ok y (by simp [hy])) x hx
    rw [hk] at hm
    unfold hwArgs
    cases hp : tstrict fl (parse hwParser (tline pre ns post)) {} .before false with
    | error e => exact ⟨e, rfl⟩
    | ok y =>
      have := (tstrict_times _ _ _ _ _ hp).1 .cmTimeout x.value (Or.inl rfl) (by simpa [ttakes] using hm)
      rw [hf] at this; cases this

/-- **C81, times of the unspawner.** -/
theorem C81_un_times :
    (∀ (args : List Str) (r : UnArgs), unArgs fl args = .ok r → ∀ t, r.switchTimeout = some t → fl t = true) ∧
    (∀ (pre : List TSetting) (ns : List Str) (post : List TSetting), (∀ n ∈ ns, Value n) → (∀ x ∈ pre ++ post, x.Ok unKey (fun _ => true)) →
      (∃ x ∈ pre ++ post, x.key = .switchTimeout ∧ fl x.value = false) → ∃ e, unArgs fl (tline pre ns post) = .error e) := by
  refine ⟨fun args r h => ?_, fun pre ns post hv ok ⟨x, hx, hk, hf⟩ => ?_⟩
  · unfold unArgs at h
    cases hp : tstrict fl (parse unParser args) {} .before false with
    | error e => rw [hp] at h; simp [Except.map] at h
    | ok y =>
      rw [hp] at h
      simp only [Except.map, Except.ok.injEq] at h
      subst h
      exact (tstrict_times _ _ _ _ _ hp).2.2 (by simp)
  · have hm := tline_times good_un pre ns post hv (fun y hy => ok y (by simp [hy])) (fun y hy => ok y (by simp [hy])) x hx
    rw [hk] at hm
    unfold unArgs
    cases hp : tstrict fl (parse unParser (tline pre ns post)) {} .before false with
    | error e => exact ⟨e, rfl⟩
    | ok y =>
      have := (tstrict_times _ _ _ _ _ hp).1 .switchTimeout x.value (Or.inr rfl) (by simpa [ttakes] using hm)
      rw [hf] at this; cases this

/-- `unspawner arm --switch-timeout soon --switch-timeout 5`: the later number does not help. -/
example :
    let fl : Str → Bool := fun s => s.all Char.isDigit
    (∃ e, unArgs fl [str "arm", str "--switch-timeout", str "soon", str "--switch-timeout", str "5"] = .error e) ∧
    unArgs fl [str "arm", str "--switch-timeout", str "5"] = .ok { ctrls := [str "arm"], switchTimeout := some (str "5") } ∧
    [str "arm", str "--switch-timeout", str "soon"] = tline [] [str "arm"] [⟨.switchTimeout, .spaced, str "soon"⟩] := by
  refine ⟨⟨.error, by decide +kernel⟩, by decide +kernel, by decide +kernel⟩

end Verif.Argv
