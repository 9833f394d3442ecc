{
 "file-05": "Breaks no claim: cache entries are keyed by the path of the file, directory included, so two routers that share a cache give the same answers. Kept as a negative control.",
 "parse-06": "C20 is about text that is UTF-8; the claims about invalid UTF-8 fail.",
 "client-07": "C54 is about one attempt; the claims about the retry fail.",
 "server-01": "C02 is about the parser; the claims about the server fail.",
 "server-10": "C32 is about the writer; the claims about the server fail.",
 "pool-01": "Breaks the invariant of the pool, from which all claims about it follow."
}