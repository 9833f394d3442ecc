import Verif.Props.Message

/-!
C20: first lines that are no text.
-/

namespace Verif

theorem line_not_utf8 (prof : Profile) {l : Bytes} (hd : LF ∉ l) (hlen : l.length < 512) (hu : utf8Valid (l ++ [LF]) = false) (as : List Atom) :
    CrlfLineParser.parse prof [] (⟨[], (l ++ [LF]).map .byte ++ as⟩ : AR) = (.perr .invalidUtf8, ⟨[], as⟩) := by
  have hb : bytesOf (l.map Atom.byte) = l := bytesOf_map _
  have h1 : prof.sub maxLineSize ([] : Bytes).length = some maxLineSize := by simp [Profile.sub]
  have h0 : 0 ∉ decN l.length [maxLineSize] := by simp [decN, maxLineSize]; omega
  have h2 := scan_quiet LF (l.map .byte) [maxLineSize] (.byte LF :: as) (quiet_map l) (by rw [hb]; exact hd)
    (by rw [hb]; simp [maxLineSize]; omega)
  rw [hb, scan_delim LF h0] at h2
  rw [crlf_eq prof [] maxLineSize h1, show (l ++ [LF]).map Atom.byte ++ as = l.map .byte ++ .byte LF :: as by simp, h2]
  simp [crlfOut, hu, decN]

/-- C20: a request whose first line (up to and with the line feed, within the limit of 512 bytes) is not UTF-8 is refused with
InvalidUtf8 at the end of the line, whatever follows. -/
theorem C20_request_not_text (prof : Profile) {line : Bytes} (hd : LF ∉ line) (hlen : line.length < 512) (hu : utf8Valid (line ++ [LF]) = false)
    {r : Rd} {rest : List Atom} (h : r.Ahead ((line ++ [LF]).map .byte ++ rest)) :
    ∃ r', RequestParser.parse prof .new r = (.perr .invalidUtf8, r') ∧ r'.Ahead rest := by
  refine requestParse_of h ?_
  unfold RequestParser.parse RequestParser.new
  rw [messageLoop_step _ _ _ _ _ _ rfl]
  simp only [msgStep, firstLineState]
  rw [line_not_utf8 prof hd hlen hu]
  rfl

/-- C20: likewise for responses. -/
theorem C20_response_not_text (prof : Profile) {line : Bytes} (hd : LF ∉ line) (hlen : line.length < 512) (hu : utf8Valid (line ++ [LF]) = false)
    {r : Rd} {rest : List Atom} (h : r.Ahead ((line ++ [LF]).map .byte ++ rest)) :
    ∃ r', ResponseParser.parse prof .new r = (.perr .invalidUtf8, r') ∧ r'.Ahead rest := by
  refine responseParse_of h ?_
  unfold ResponseParser.parse ResponseParser.new
  rw [messageLoop_step _ _ _ _ _ _ rfl]
  simp only [msgStep, firstLineState]
  rw [line_not_utf8 prof hd hlen hu]
  rfl

/-- Non-vacuity: a target with a lone byte of a letter. -/
example : LF ∉ b!"GET /caf" ++ [0xC3] ++ b!" HTTP/1.1\r" ∧
    utf8Valid (b!"GET /caf" ++ [0xC3] ++ b!" HTTP/1.1\r" ++ [LF]) = false := by
  decide +kernel

end Verif
