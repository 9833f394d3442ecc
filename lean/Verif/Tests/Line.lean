import Verif.Tests.Harness

/-!
The unit tests of `src/parse/crlf_line.rs`, written by `tools/mktests.py`.
-/

namespace Verif.Tests.Line

/-- crlf_line.rs 71-76. -/
theorem full_line : line [
    ([b!"hello there\r\n"], .value (b!"hello there"))] := by decide +kernel

/-- crlf_line.rs 78-83. -/
theorem multiple_full_lines_all_at_once : line [
    ([b!"hello there\r\n", b!"hello there 2\r\n", b!"hello there 3\r\n"], .value (b!"hello there"))] := by decide +kernel

/-- crlf_line.rs 85-90. -/
theorem multiple_full_lines_fragmented_all_at_once : line [
    ([b!"hello ", b!"there\r", b!"\n", b!"hell", b!"o the", b!"re 2\r", b!"\n", b!"he", b!"ll", b!"o the", b!"re 3", b!"\r", b!"\n"], .value (b!"hello there"))] := by decide +kernel

/-- crlf_line.rs 92-97. -/
theorem full_line_in_fragments : line [
    ([b!"he", b!"llo", b!" there", b!"\r", b!"\n"], .value (b!"hello there"))] := by decide +kernel

/-- crlf_line.rs 99-108. -/
theorem partial_line : line [
    ([b!"hello"], .ioErr .wouldBlock),
    ([b!" "], .ioErr .wouldBlock),
    ([b!" there"], .ioErr .wouldBlock),
    ([b!"\r"], .ioErr .wouldBlock),
    ([b!"\n"], .value (b!"hello  there"))] := by decide +kernel

/-- crlf_line.rs 110-118. -/
theorem partial_line_multiple_fragments : line [
    ([b!"hel", b!"lo"], .ioErr .wouldBlock),
    ([b!" ", b!"t"], .ioErr .wouldBlock),
    ([b!"he", b!"r", b!"e"], .ioErr .wouldBlock),
    ([b!"\r", b!"\n"], .value (b!"hello there"))] := by decide +kernel

/-- crlf_line.rs 120-132. -/
theorem no_new_data_for_a_while : line [
    ([b!"hel", b!"lo"], .ioErr .wouldBlock),
    ([], .ioErr .wouldBlock),
    ([], .ioErr .wouldBlock),
    ([], .ioErr .wouldBlock),
    ([], .ioErr .wouldBlock),
    ([], .ioErr .wouldBlock),
    ([], .ioErr .wouldBlock),
    ([b!"\r", b!"\n"], .value b!"hello")] := by decide +kernel

/-- crlf_line.rs 134-142. -/
theorem missing_cr : line [
    ([b!"hello"], .ioErr .wouldBlock),
    ([b!" "], .ioErr .wouldBlock),
    ([b!" there"], .ioErr .wouldBlock),
    ([b!"\n"], .parseErr .badSyntax)] := by decide +kernel

/-- crlf_line.rs 144-152. -/
theorem missing_lf : line [
    ([b!"hello"], .ioErr .wouldBlock),
    ([b!" "], .ioErr .wouldBlock),
    ([b!" there"], .ioErr .wouldBlock),
    ([b!"\r"], .ioErr .wouldBlock)] := by decide +kernel

/-- crlf_line.rs 154-162. -/
theorem missing_crlf_before_eof : line [
    ([b!"hello"], .ioErr .wouldBlock),
    ([b!" "], .ioErr .wouldBlock),
    ([b!" there"], .ioErr .wouldBlock),
    ([b!""], .ioErr .unexpectedEof)] := by decide +kernel

/-- crlf_line.rs 164-169. -/
theorem no_data_eof : line [
    ([b!""], .ioErr .unexpectedEof)] := by decide +kernel

/-- crlf_line.rs 171-176. -/
theorem no_data : line [
    ([], .ioErr .wouldBlock)] := by decide +kernel

/-- crlf_line.rs 178-184. -/
theorem invalid_utf8 : line [
    ([[0, 255, 2, 127, 4, 5, 3, 8]], .ioErr .wouldBlock)] := by decide +kernel

/-- crlf_line.rs 186-192. -/
theorem invalid_utf8_with_crlf : line [
    ([[0, 255, 2, 127, 4, 5, 3, 8], b!"\r\n"], .parseErr .invalidUtf8)] := by decide +kernel

/-- `data` of the next test. -/
def weird_line_data : Bytes := [
  b!"r3984ty 98q39p8fuq p    9^\t%$\r%$@#!#@!%\r$%^%&%&*()_+|:{}>][/[\\/]3-062--=-9`~"].flatten

/-- crlf_line.rs 194-201. -/
theorem weird_line : line [
    ([weird_line_data], .ioErr .wouldBlock),
    ([b!"\r\n"], .value (weird_line_data))] := by decide +kernel

/-- `data` of the next test. -/
def too_long_data : Bytes := [
  b!" wrgiu hweiguhwepuiorgh w;eouirgh w;eoirugh ;weoug weroigj o;weirjg ;qweroig pwe",
  b!"oirg ;ewoirjhg; weoi"].flatten

/-- crlf_line.rs 203-214. -/
theorem too_long : line [
    ([too_long_data], .ioErr .wouldBlock),
    ([too_long_data, too_long_data], .ioErr .wouldBlock),
    ([too_long_data], .ioErr .wouldBlock),
    ([too_long_data], .ioErr .wouldBlock),
    ([too_long_data], .ioErr .limitReached)] := by decide +kernel

end Verif.Tests.Line
