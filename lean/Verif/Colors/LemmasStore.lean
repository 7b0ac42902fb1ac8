import Verif.Colors.LemmasColor

/- Helper lemmas: results taken from the sorted arrays. -/
namespace Verif.Colors

/-- entries in order, with an end mark, for which all data can be read, for different places -/
structure EntriesOk (n : Nat) (l : List Entry) : Prop where
  sorted : l.Pairwise fun a b => a.key ≤ b.key
  data : ∀ e ∈ l, e.key < n → ∃ o k, e.data = some (o, k)
  places : ∀ e ∈ l, ∀ e' ∈ l, e.key < n → e'.key < n → ∀ o o' k, e.data = some (o, k) → e'.data = some (o', k) → e.key = e'.key ∧ o = o'

theorem EntriesOk.sub {n : Nat} {l l' : List Entry} (h : EntriesOk n l) (hs : l'.Sublist l) : EntriesOk n l' :=
  ⟨h.sorted.sublist hs, fun e he => h.data e (hs.subset he), fun e he e' he' => h.places e (hs.subset he) e' (hs.subset he')⟩

theorem skip_ok {j : Nat} : ∀ (l : List Entry), l.Pairwise (fun a b => a.key ≤ b.key) → (∃ e ∈ l, j ≤ e.key) →
    ∃ e l', skip j l = some (e :: l') ∧ (e :: l').Sublist l ∧ j ≤ e.key ∧ ∀ x ∈ l, j ≤ x.key → x ∈ e :: l'
  | [], _, h => by
    obtain ⟨e, he, _⟩ := h
    cases he
  | e :: l, hs, h => by
    unfold skip
    by_cases hk : e.key < j
    · obtain ⟨x, hx, hxj⟩ := h
      have hxl : x ∈ l := by
        rcases List.mem_cons.1 hx with rfl | hx
        · omega
        · exact hx
      obtain ⟨e', l', h1, h2, h3, h4⟩ := skip_ok l (List.pairwise_cons.1 hs).2 ⟨x, hxl, hxj⟩
      refine ⟨e', l', by rw [if_pos hk]; exact h1, h2.cons _, h3, ?_⟩
      intro y hy hyj
      rcases List.mem_cons.1 hy with rfl | hy
      · omega
      · exact h4 y hy hyj
    · exact ⟨e, l, by rw [if_neg hk], List.Sublist.refl _, by omega, fun x hx _ => hx⟩

theorem store_ok {R : Type} {n j : Nat} {v : Nat → Option R} (hj : j < n) : ∀ (l : List Entry) (out : List R), EntriesOk n l →
    (∀ e ∈ l, j ≤ e.key) → (∃ e ∈ l, e.key = n) →
    (∀ e ∈ l, e.key = j → ∀ o k, e.data = some (o, k) → (∃ x, v o = some x) ∧ k < out.length) →
    ∃ l' out', store v j l out = some (l', out') ∧ l'.Sublist l ∧ (∀ x ∈ l, j < x.key → x ∈ l') ∧ out'.length = out.length ∧
      (∀ e ∈ l, e.key = j → ∀ o k, e.data = some (o, k) → out'[k]? = v o) ∧
      ∀ k, (∀ e ∈ l, e.key = j → ∀ o, e.data ≠ some (o, k)) → out'[k]? = out[k]?
  | [], _, _, _, h, _ => by
    obtain ⟨e, he, _⟩ := h
    cases he
  | e :: l, out, ho, hge, hend, hv => by
    unfold store
    have htail : EntriesOk n l := ho.sub (List.sublist_cons_self _ _)
    by_cases hk : e.key = j
    · obtain ⟨o, k, hd⟩ := ho.data e (by simp) (by omega)
      obtain ⟨⟨x, hx⟩, hlt⟩ := hv e (by simp) hk o k hd
      have hend' : ∃ e ∈ l, e.key = n := by
        obtain ⟨y, hy, hyn⟩ := hend
        rcases List.mem_cons.1 hy with rfl | hy
        · omega
        · exact ⟨y, hy, hyn⟩
      obtain ⟨l', out', h1, h2, h3, h4, h5, h6⟩ := store_ok hj l (out.set k x) htail (fun e he => hge e (List.mem_cons_of_mem _ he)) hend'
        (fun e he hke o k hd => by
          rw [List.length_set]
          exact hv e (List.mem_cons_of_mem _ he) hke o k hd)
      refine ⟨l', out', by simp only [hk, if_true, hd, hx, hlt]; exact h1, h2.cons _, ?_, by rw [h4, List.length_set], ?_, ?_⟩
      · intro y hy hyj
        rcases List.mem_cons.1 hy with rfl | hy
        · omega
        · exact h3 y hy hyj
      · intro y hy hyk o' k' hd'
        rcases List.mem_cons.1 hy with rfl | hy
        · rw [hd] at hd'
          cases hd'
          by_cases hex : ∃ z ∈ l, z.key = j ∧ ∃ o', z.data = some (o', k)
          · obtain ⟨z, hz, hzk, o', hzd⟩ := hex
            have := (ho.places y (by simp) z (List.mem_cons_of_mem _ hz) (by omega) (by omega) o o' k hd hzd).2
            rw [h5 z hz hzk o' k hzd, this]
          · rw [h6 k fun z hz hzk o' hzd => hex ⟨z, hz, hzk, o', hzd⟩, List.getElem?_set_self hlt, hx]
        · exact h5 y hy hyk o' k' hd'
      · intro k' hk'
        have hne : k ≠ k' := fun e' => hk' e (by simp) hk o (e' ▸ hd)
        rw [h6 k' fun z hz => hk' z (List.mem_cons_of_mem _ hz), List.getElem?_set_ne hne]
    · have hgt : ∀ y ∈ e :: l, y.key ≠ j := by
        intro y hy
        have h1 := hge e (by simp)
        rcases List.mem_cons.1 hy with rfl | hy
        · exact hk
        · have := (List.pairwise_cons.1 ho.sorted).1 y hy
          omega
      exact ⟨e :: l, out, by rw [if_neg hk], List.Sublist.refl _, fun x hx _ => hx, rfl, fun y hy hyk => absurd hyk (hgt y hy), fun _ _ => rfl⟩

/-- an entry for one of the columns with the color -/
def Takes (color : List Nat) (c : Nat) (js : List Nat) (e : Entry) : Prop := e.key ∈ js ∧ color[e.key]? = some c

theorem extract_ok {R : Type} {n c : Nat} {color : List Nat} {v : Nat → Option R} (hc : color.length = n) :
    ∀ (js : List Nat) (l : List Entry) (out : List R), EntriesOk n l → js.Pairwise (· < ·) → (∀ j ∈ js, j < n) → (∃ e ∈ l, e.key = n) →
    (∀ e ∈ l, Takes color c js e → ∀ o k, e.data = some (o, k) → (∃ x, v o = some x) ∧ k < out.length) →
    ∃ out', extract color c v js l out = some out' ∧ out'.length = out.length ∧
      (∀ e ∈ l, Takes color c js e → ∀ o k, e.data = some (o, k) → out'[k]? = v o) ∧
      ∀ k, (∀ e ∈ l, Takes color c js e → ∀ o, e.data ≠ some (o, k)) → out'[k]? = out[k]?
  | [], l, out, _, _, _, _, _ => ⟨out, rfl, rfl, fun e _ h => (nomatch h.1), fun _ _ => rfl⟩
  | j :: js, l, out, ho, hs, hn, hend, hv => by
    have hjn := hn j (by simp)
    obtain ⟨hgt, hs'⟩ := List.pairwise_cons.1 hs
    have hn' : ∀ j ∈ js, j < n := fun i hi => hn i (List.mem_cons_of_mem _ hi)
    have hcj : color[j]? = some color[j] := List.getElem?_eq_getElem (by omega)
    unfold extract
    simp only [hcj]
    by_cases hk : color[j] = c
    · simp only [hk, if_true]
      obtain ⟨z, hz, hzn⟩ := hend
      obtain ⟨e1, l1, k1, k2, k3, k4⟩ := skip_ok (j := j) l ho.sorted ⟨z, hz, by omega⟩
      have ho1 := ho.sub k2
      have hge : ∀ e ∈ e1 :: l1, j ≤ e.key := by
        intro e he
        rcases List.mem_cons.1 he with rfl | he
        · exact k3
        · have := (List.pairwise_cons.1 ho1.sorted).1 e he
          omega
      have htake : ∀ e : Entry, e.key = j → Takes color c (j :: js) e := fun e he => ⟨by simp [he], by rw [he, hcj, hk]⟩
      obtain ⟨l2, out1, s1, s2, s3, s4, s5, s6⟩ := store_ok (v := v) hjn (e1 :: l1) out ho1 hge ⟨z, k4 z hz (by omega), hzn⟩
        (fun e he hke => hv e (k2.subset he) (htake e hke))
      have hsub := s2.trans k2
      obtain ⟨out2, t1, t2, t3, t4⟩ := extract_ok (v := v) hc js l2 out1 (ho.sub hsub) hs' hn' ⟨z, s3 z (k4 z hz (by omega)) (by omega), hzn⟩
        (fun e he ht o k hd => by
          rw [s4]
          exact hv e (hsub.subset he) ⟨List.mem_cons_of_mem _ ht.1, ht.2⟩ o k hd)
      refine ⟨out2, by simp only [k1, s1]; exact t1, t2.trans s4, ?_, ?_⟩
      · intro e he ht o k hd
        rcases List.mem_cons.1 ht.1 with hej | hej
        · have he1 := k4 e he (by omega)
          rw [t4 k, s5 e he1 hej o k hd]
          intro e' he' ht' o' hd'
          have h1 := hn' _ ht'.1
          have h2 := hgt _ ht'.1
          have := (ho.places e he e' (hsub.subset he') (by omega) h1 o o' k hd hd').1
          omega
        · have hlt := hgt _ hej
          exact t3 e (s3 e (k4 e he (by omega)) hlt) ⟨hej, ht.2⟩ o k hd
      · intro k hk'
        rw [t4 k fun e he ht => hk' e (hsub.subset he) ⟨List.mem_cons_of_mem _ ht.1, ht.2⟩,
          s6 k fun e he hke => hk' e (k2.subset he) (htake e hke)]
    · simp only [hk, if_false]
      have hiff : ∀ e : Entry, Takes color c (j :: js) e ↔ Takes color c js e := by
        intro e
        constructor
        · rintro ⟨h1, h2⟩
          rcases List.mem_cons.1 h1 with h1 | h1
          · rw [h1, hcj] at h2
            exact absurd (by simpa using h2) hk
          · exact ⟨h1, h2⟩
        · exact fun h => ⟨List.mem_cons_of_mem _ h.1, h.2⟩
      obtain ⟨out', t1, t2, t3, t4⟩ := extract_ok (v := v) hc js l out ho hs' hn' hend (fun e he ht => hv e he ((hiff e).2 ht))
      exact ⟨out', t1, t2, fun e he ht => t3 e he ((hiff e).1 ht), fun k hk => t4 k fun e he ht => hk e he ((hiff e).2 ht)⟩

theorem firstUse_ok {n c : Nat} {color : List Nat} (hc : color.length = n) :
    ∀ (js : List Nat) (l : List Entry), l.Pairwise (fun a b => a.key ≤ b.key) → js.Pairwise (· < ·) → (∀ j ∈ js, j < n) → (∃ e ∈ l, e.key = n) →
    ∃ b l', firstUse color c js l = some (b, l') ∧ l'.Sublist l ∧ (∃ e ∈ l', e.key = n) ∧
      (b = true → ∀ e ∈ l, Takes color c js e → e ∈ l') ∧ (b = true ↔ ∃ e ∈ l, Takes color c js e)
  | [], l, _, _, _, hend => ⟨false, l, rfl, List.Sublist.refl _, hend, fun h => (nomatch h), by simp [Takes]⟩
  | j :: js, l, ho, hs, hn, hend => by
    have hjn := hn j (by simp)
    obtain ⟨hgt, hs'⟩ := List.pairwise_cons.1 hs
    have hn' : ∀ j ∈ js, j < n := fun i hi => hn i (List.mem_cons_of_mem _ hi)
    have hcj : color[j]? = some color[j] := List.getElem?_eq_getElem (by omega)
    unfold firstUse
    simp only [hcj]
    by_cases hk : color[j] = c
    · simp only [hk, if_true]
      obtain ⟨z, hz, hzn⟩ := hend
      obtain ⟨e1, l1, k1, k2, k3, k4⟩ := skip_ok (j := j) l ho ⟨z, hz, by omega⟩
      simp only [k1]
      by_cases he1 : e1.key = j
      · refine ⟨true, e1 :: l1, by rw [if_pos he1], k2, ⟨z, k4 z hz (by omega), hzn⟩, ?_, ?_⟩
        · intro _ e he ht
          refine k4 e he ?_
          rcases List.mem_cons.1 ht.1 with h | h
          · omega
          · have := hgt _ h
            omega
        · simp only [true_iff]
          exact ⟨e1, k2.subset (by simp), by simp [he1], by rw [he1, hcj, hk]⟩
      · obtain ⟨b, l', h1, h2, h3, h4, h5⟩ := firstUse_ok hc js (e1 :: l1) (ho.sublist k2) hs' hn' ⟨z, k4 z hz (by omega), hzn⟩
        -- no entry of this column
        have hno : ∀ e ∈ l, e.key ≠ j := by
          intro e he hej
          rcases List.mem_cons.1 (k4 e he (by omega)) with rfl | h
          · exact he1 hej
          · have := (List.pairwise_cons.1 (ho.sublist k2)).1 e h
            omega
        have hmem : ∀ e ∈ l, Takes color c (j :: js) e → e ∈ e1 :: l1 ∧ Takes color c js e := by
          intro e he ht
          rcases List.mem_cons.1 ht.1 with h | h
          · exact absurd h (hno e he)
          · have := hgt _ h
            exact ⟨k4 e he (by omega), h, ht.2⟩
        refine ⟨b, l', by rw [if_neg he1]; exact h1, h2.trans k2, h3, ?_, ?_⟩
        · intro hb e he ht
          exact h4 hb e (hmem e he ht).1 (hmem e he ht).2
        · rw [h5]
          constructor
          · rintro ⟨e, he, ht⟩
            exact ⟨e, k2.subset he, List.mem_cons_of_mem _ ht.1, ht.2⟩
          · rintro ⟨e, he, ht⟩
            exact ⟨e, hmem e he ht⟩
    · simp only [hk, if_false]
      have hiff : ∀ e : Entry, Takes color c (j :: js) e ↔ Takes color c js e := by
        intro e
        constructor
        · rintro ⟨h1, h2⟩
          rcases List.mem_cons.1 h1 with h1 | h1
          · rw [h1, hcj] at h2
            exact absurd (by simpa using h2) hk
          · exact ⟨h1, h2⟩
        · exact fun h => ⟨List.mem_cons_of_mem _ h.1, h.2⟩
      obtain ⟨b, l', h1, h2, h3, h4, h5⟩ := firstUse_ok hc js l ho hs' hn' hend
      refine ⟨b, l', h1, h2, h3, fun hb e he ht => h4 hb e he ((hiff e).1 ht), ?_⟩
      rw [h5]
      exact ⟨fun ⟨e, he, ht⟩ => ⟨e, he, (hiff e).2 ht⟩, fun ⟨e, he, ht⟩ => ⟨e, he, (hiff e).1 ht⟩⟩

end Verif.Colors
