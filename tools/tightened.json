{
 "server-03": [
  "C22_failed_partial (new: what one handler invocation sends when reading fails)",
  "C35_refused_partial and C36_reasons_partial through Spec.NoRequest, which now excludes an abort"
 ],
 "cpool-01": [
  "C47_looks_on (new: a thread looking for a connection can always look on and goes on until it uses one)"
 ],
 "cpool-04": [
  "C47_looks_on (new: a thread looking for a connection can always look on and goes on until it uses one)"
 ],
 "cpool-03": [
  "C47_available (new: a connection can be taken exactly if no call uses it and none on it panicked)"
 ],
 "router-07": [
  "C23_registered (added: a router built by registering one route after the other asks them in that order)"
 ],
 "parse-23": [
  "C10_request (added: the framing of a body, for whole requests)"
 ],
 "parse-24": [
  "C10_response (added: the framing of a body, for whole responses)"
 ],
 "header-07": [
  "C10_names (added: the names that decide the framing are found whatever their case)"
 ],
 "status-02": [
  "C21_reasons (new: the reason of each status is the phrase of the registry)"
 ],
 "parse-06": [
  "C20_request_not_text, C20_response_not_text (added: a first line that is not UTF-8 is refused with InvalidUtf8); the theorems that failed before were all of other claims"
 ]
}