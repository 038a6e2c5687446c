import Verif.Model.Bristol
import Verif.Model.Chars

/-!
# `src/circuits/arithmetic/mod.rs`: bundled circuits

The texts are those of `adder64.txt`, `sub64.txt` and `neg64.txt` in `src/circuits/arithmetic`, line by line (generated by
`tools/mktext.py`). Every line of these files ends with `\n`. The large files are in
`Model/Mult64`, `Model/Udiv64`, `Model/Div64` and `Model/Aes128`.
-/

namespace CC.Bundled
open CC.Bristol

/-- the text consisting of these lines -/
def ofLines (ls : List (List Char)) : List Char := ls.flatMap fun l => l ++ ['\n']

/-- `build_circuit_from_bristol!` — src/circuits/mod.rs:20-32: a new reader reads the text into the given circuit. -/
def build (text : List Char) (r : Ref) : M Unit := do
  let _ ← read r Map.empty text
  pure ()

/-- src/circuits/arithmetic/adder64.txt -/
def adder64Text : List Char := ofLines [
  chars! "376 504",
  chars! "2 64 64 ",
  chars! "1 64 ",
  chars! "",
  chars! "2 1 63 127 376 XOR",
  chars! "2 1 62 126 375 XOR",
  chars! "2 1 61 125 374 XOR",
  chars! "2 1 60 124 373 XOR",
  chars! "2 1 59 123 372 XOR",
  chars! "2 1 58 122 371 XOR",
  chars! "2 1 57 121 370 XOR",
  chars! "2 1 56 120 369 XOR",
  chars! "2 1 55 119 368 XOR",
  chars! "2 1 54 118 367 XOR",
  chars! "2 1 53 117 366 XOR",
  chars! "2 1 52 116 365 XOR",
  chars! "2 1 51 115 364 XOR",
  chars! "2 1 50 114 363 XOR",
  chars! "2 1 49 113 362 XOR",
  chars! "2 1 48 112 361 XOR",
  chars! "2 1 47 111 360 XOR",
  chars! "2 1 46 110 359 XOR",
  chars! "2 1 45 109 358 XOR",
  chars! "2 1 44 108 357 XOR",
  chars! "2 1 43 107 356 XOR",
  chars! "2 1 42 106 355 XOR",
  chars! "2 1 41 105 354 XOR",
  chars! "2 1 40 104 353 XOR",
  chars! "2 1 39 103 352 XOR",
  chars! "2 1 38 102 351 XOR",
  chars! "2 1 37 101 350 XOR",
  chars! "2 1 36 100 349 XOR",
  chars! "2 1 35 99 348 XOR",
  chars! "2 1 34 98 347 XOR",
  chars! "2 1 33 97 346 XOR",
  chars! "2 1 32 96 345 XOR",
  chars! "2 1 31 95 344 XOR",
  chars! "2 1 30 94 343 XOR",
  chars! "2 1 29 93 342 XOR",
  chars! "2 1 28 92 341 XOR",
  chars! "2 1 27 91 340 XOR",
  chars! "2 1 26 90 339 XOR",
  chars! "2 1 25 89 338 XOR",
  chars! "2 1 24 88 337 XOR",
  chars! "2 1 23 87 336 XOR",
  chars! "2 1 22 86 335 XOR",
  chars! "2 1 21 85 334 XOR",
  chars! "2 1 20 84 333 XOR",
  chars! "2 1 19 83 332 XOR",
  chars! "2 1 18 82 331 XOR",
  chars! "2 1 17 81 330 XOR",
  chars! "2 1 16 80 329 XOR",
  chars! "2 1 15 79 328 XOR",
  chars! "2 1 14 78 327 XOR",
  chars! "2 1 13 77 326 XOR",
  chars! "2 1 12 76 325 XOR",
  chars! "2 1 11 75 324 XOR",
  chars! "2 1 10 74 323 XOR",
  chars! "2 1 9 73 322 XOR",
  chars! "2 1 8 72 321 XOR",
  chars! "2 1 7 71 320 XOR",
  chars! "2 1 6 70 319 XOR",
  chars! "2 1 5 69 318 XOR",
  chars! "2 1 4 68 317 XOR",
  chars! "2 1 3 67 316 XOR",
  chars! "2 1 2 66 315 XOR",
  chars! "2 1 1 65 314 XOR",
  chars! "2 1 0 64 440 XOR",
  chars! "2 1 0 64 377 AND",
  chars! "2 1 65 377 129 XOR",
  chars! "2 1 1 377 128 XOR",
  chars! "2 1 128 129 130 AND",
  chars! "2 1 130 377 378 XOR",
  chars! "2 1 66 378 132 XOR",
  chars! "2 1 2 378 131 XOR",
  chars! "2 1 131 132 133 AND",
  chars! "2 1 133 378 379 XOR",
  chars! "2 1 67 379 135 XOR",
  chars! "2 1 3 379 134 XOR",
  chars! "2 1 134 135 136 AND",
  chars! "2 1 136 379 380 XOR",
  chars! "2 1 68 380 138 XOR",
  chars! "2 1 4 380 137 XOR",
  chars! "2 1 137 138 139 AND",
  chars! "2 1 139 380 381 XOR",
  chars! "2 1 69 381 141 XOR",
  chars! "2 1 5 381 140 XOR",
  chars! "2 1 140 141 142 AND",
  chars! "2 1 142 381 382 XOR",
  chars! "2 1 70 382 144 XOR",
  chars! "2 1 6 382 143 XOR",
  chars! "2 1 143 144 145 AND",
  chars! "2 1 145 382 383 XOR",
  chars! "2 1 71 383 147 XOR",
  chars! "2 1 7 383 146 XOR",
  chars! "2 1 146 147 148 AND",
  chars! "2 1 148 383 384 XOR",
  chars! "2 1 72 384 150 XOR",
  chars! "2 1 8 384 149 XOR",
  chars! "2 1 149 150 151 AND",
  chars! "2 1 151 384 385 XOR",
  chars! "2 1 73 385 153 XOR",
  chars! "2 1 9 385 152 XOR",
  chars! "2 1 152 153 154 AND",
  chars! "2 1 154 385 386 XOR",
  chars! "2 1 74 386 156 XOR",
  chars! "2 1 10 386 155 XOR",
  chars! "2 1 155 156 157 AND",
  chars! "2 1 157 386 387 XOR",
  chars! "2 1 75 387 159 XOR",
  chars! "2 1 11 387 158 XOR",
  chars! "2 1 158 159 160 AND",
  chars! "2 1 160 387 388 XOR",
  chars! "2 1 76 388 162 XOR",
  chars! "2 1 12 388 161 XOR",
  chars! "2 1 161 162 163 AND",
  chars! "2 1 163 388 389 XOR",
  chars! "2 1 77 389 165 XOR",
  chars! "2 1 13 389 164 XOR",
  chars! "2 1 164 165 166 AND",
  chars! "2 1 166 389 390 XOR",
  chars! "2 1 78 390 168 XOR",
  chars! "2 1 14 390 167 XOR",
  chars! "2 1 167 168 169 AND",
  chars! "2 1 169 390 391 XOR",
  chars! "2 1 79 391 171 XOR",
  chars! "2 1 15 391 170 XOR",
  chars! "2 1 170 171 172 AND",
  chars! "2 1 172 391 392 XOR",
  chars! "2 1 80 392 174 XOR",
  chars! "2 1 16 392 173 XOR",
  chars! "2 1 173 174 175 AND",
  chars! "2 1 175 392 393 XOR",
  chars! "2 1 81 393 177 XOR",
  chars! "2 1 17 393 176 XOR",
  chars! "2 1 176 177 178 AND",
  chars! "2 1 178 393 394 XOR",
  chars! "2 1 82 394 180 XOR",
  chars! "2 1 18 394 179 XOR",
  chars! "2 1 179 180 181 AND",
  chars! "2 1 181 394 395 XOR",
  chars! "2 1 83 395 183 XOR",
  chars! "2 1 19 395 182 XOR",
  chars! "2 1 182 183 184 AND",
  chars! "2 1 184 395 396 XOR",
  chars! "2 1 84 396 186 XOR",
  chars! "2 1 20 396 185 XOR",
  chars! "2 1 185 186 187 AND",
  chars! "2 1 187 396 397 XOR",
  chars! "2 1 85 397 189 XOR",
  chars! "2 1 21 397 188 XOR",
  chars! "2 1 188 189 190 AND",
  chars! "2 1 190 397 398 XOR",
  chars! "2 1 86 398 192 XOR",
  chars! "2 1 22 398 191 XOR",
  chars! "2 1 191 192 193 AND",
  chars! "2 1 193 398 399 XOR",
  chars! "2 1 87 399 195 XOR",
  chars! "2 1 23 399 194 XOR",
  chars! "2 1 194 195 196 AND",
  chars! "2 1 196 399 400 XOR",
  chars! "2 1 88 400 198 XOR",
  chars! "2 1 24 400 197 XOR",
  chars! "2 1 197 198 199 AND",
  chars! "2 1 199 400 401 XOR",
  chars! "2 1 89 401 201 XOR",
  chars! "2 1 25 401 200 XOR",
  chars! "2 1 200 201 202 AND",
  chars! "2 1 202 401 402 XOR",
  chars! "2 1 90 402 204 XOR",
  chars! "2 1 26 402 203 XOR",
  chars! "2 1 203 204 205 AND",
  chars! "2 1 205 402 403 XOR",
  chars! "2 1 91 403 207 XOR",
  chars! "2 1 27 403 206 XOR",
  chars! "2 1 206 207 208 AND",
  chars! "2 1 208 403 404 XOR",
  chars! "2 1 341 404 468 XOR",
  chars! "2 1 92 404 210 XOR",
  chars! "2 1 28 404 209 XOR",
  chars! "2 1 209 210 211 AND",
  chars! "2 1 211 404 405 XOR",
  chars! "2 1 342 405 469 XOR",
  chars! "2 1 340 403 467 XOR",
  chars! "2 1 93 405 213 XOR",
  chars! "2 1 29 405 212 XOR",
  chars! "2 1 212 213 214 AND",
  chars! "2 1 214 405 406 XOR",
  chars! "2 1 343 406 470 XOR",
  chars! "2 1 339 402 466 XOR",
  chars! "2 1 94 406 216 XOR",
  chars! "2 1 30 406 215 XOR",
  chars! "2 1 215 216 217 AND",
  chars! "2 1 217 406 407 XOR",
  chars! "2 1 338 401 465 XOR",
  chars! "2 1 31 407 218 XOR",
  chars! "2 1 344 407 471 XOR",
  chars! "2 1 337 400 464 XOR",
  chars! "2 1 95 407 219 XOR",
  chars! "2 1 218 219 220 AND",
  chars! "2 1 220 407 408 XOR",
  chars! "2 1 345 408 472 XOR",
  chars! "2 1 336 399 463 XOR",
  chars! "2 1 96 408 222 XOR",
  chars! "2 1 32 408 221 XOR",
  chars! "2 1 221 222 223 AND",
  chars! "2 1 223 408 409 XOR",
  chars! "2 1 346 409 473 XOR",
  chars! "2 1 335 398 462 XOR",
  chars! "2 1 97 409 225 XOR",
  chars! "2 1 33 409 224 XOR",
  chars! "2 1 224 225 226 AND",
  chars! "2 1 226 409 410 XOR",
  chars! "2 1 347 410 474 XOR",
  chars! "2 1 334 397 461 XOR",
  chars! "2 1 98 410 228 XOR",
  chars! "2 1 34 410 227 XOR",
  chars! "2 1 227 228 229 AND",
  chars! "2 1 229 410 411 XOR",
  chars! "2 1 333 396 460 XOR",
  chars! "2 1 35 411 230 XOR",
  chars! "2 1 348 411 475 XOR",
  chars! "2 1 332 395 459 XOR",
  chars! "2 1 99 411 231 XOR",
  chars! "2 1 230 231 232 AND",
  chars! "2 1 232 411 412 XOR",
  chars! "2 1 349 412 476 XOR",
  chars! "2 1 331 394 458 XOR",
  chars! "2 1 100 412 234 XOR",
  chars! "2 1 36 412 233 XOR",
  chars! "2 1 233 234 235 AND",
  chars! "2 1 235 412 413 XOR",
  chars! "2 1 350 413 477 XOR",
  chars! "2 1 330 393 457 XOR",
  chars! "2 1 101 413 237 XOR",
  chars! "2 1 37 413 236 XOR",
  chars! "2 1 236 237 238 AND",
  chars! "2 1 238 413 414 XOR",
  chars! "2 1 351 414 478 XOR",
  chars! "2 1 329 392 456 XOR",
  chars! "2 1 102 414 240 XOR",
  chars! "2 1 38 414 239 XOR",
  chars! "2 1 239 240 241 AND",
  chars! "2 1 241 414 415 XOR",
  chars! "2 1 328 391 455 XOR",
  chars! "2 1 39 415 242 XOR",
  chars! "2 1 352 415 479 XOR",
  chars! "2 1 327 390 454 XOR",
  chars! "2 1 103 415 243 XOR",
  chars! "2 1 242 243 244 AND",
  chars! "2 1 244 415 416 XOR",
  chars! "2 1 353 416 480 XOR",
  chars! "2 1 326 389 453 XOR",
  chars! "2 1 104 416 246 XOR",
  chars! "2 1 40 416 245 XOR",
  chars! "2 1 245 246 247 AND",
  chars! "2 1 247 416 417 XOR",
  chars! "2 1 354 417 481 XOR",
  chars! "2 1 325 388 452 XOR",
  chars! "2 1 105 417 249 XOR",
  chars! "2 1 41 417 248 XOR",
  chars! "2 1 248 249 250 AND",
  chars! "2 1 250 417 418 XOR",
  chars! "2 1 355 418 482 XOR",
  chars! "2 1 324 387 451 XOR",
  chars! "2 1 106 418 252 XOR",
  chars! "2 1 42 418 251 XOR",
  chars! "2 1 251 252 253 AND",
  chars! "2 1 253 418 419 XOR",
  chars! "2 1 323 386 450 XOR",
  chars! "2 1 43 419 254 XOR",
  chars! "2 1 356 419 483 XOR",
  chars! "2 1 322 385 449 XOR",
  chars! "2 1 107 419 255 XOR",
  chars! "2 1 254 255 256 AND",
  chars! "2 1 256 419 420 XOR",
  chars! "2 1 357 420 484 XOR",
  chars! "2 1 321 384 448 XOR",
  chars! "2 1 108 420 258 XOR",
  chars! "2 1 44 420 257 XOR",
  chars! "2 1 257 258 259 AND",
  chars! "2 1 259 420 421 XOR",
  chars! "2 1 358 421 485 XOR",
  chars! "2 1 320 383 447 XOR",
  chars! "2 1 109 421 261 XOR",
  chars! "2 1 45 421 260 XOR",
  chars! "2 1 260 261 262 AND",
  chars! "2 1 262 421 422 XOR",
  chars! "2 1 359 422 486 XOR",
  chars! "2 1 319 382 446 XOR",
  chars! "2 1 110 422 264 XOR",
  chars! "2 1 46 422 263 XOR",
  chars! "2 1 263 264 265 AND",
  chars! "2 1 265 422 423 XOR",
  chars! "2 1 318 381 445 XOR",
  chars! "2 1 47 423 266 XOR",
  chars! "2 1 360 423 487 XOR",
  chars! "2 1 317 380 444 XOR",
  chars! "2 1 111 423 267 XOR",
  chars! "2 1 266 267 268 AND",
  chars! "2 1 268 423 424 XOR",
  chars! "2 1 361 424 488 XOR",
  chars! "2 1 316 379 443 XOR",
  chars! "2 1 112 424 270 XOR",
  chars! "2 1 48 424 269 XOR",
  chars! "2 1 269 270 271 AND",
  chars! "2 1 271 424 425 XOR",
  chars! "2 1 362 425 489 XOR",
  chars! "2 1 315 378 442 XOR",
  chars! "2 1 113 425 273 XOR",
  chars! "2 1 49 425 272 XOR",
  chars! "2 1 272 273 274 AND",
  chars! "2 1 274 425 426 XOR",
  chars! "2 1 363 426 490 XOR",
  chars! "2 1 314 377 441 XOR",
  chars! "2 1 114 426 276 XOR",
  chars! "2 1 50 426 275 XOR",
  chars! "2 1 275 276 277 AND",
  chars! "2 1 277 426 427 XOR",
  chars! "2 1 115 427 279 XOR",
  chars! "2 1 51 427 278 XOR",
  chars! "2 1 278 279 280 AND",
  chars! "2 1 280 427 428 XOR",
  chars! "2 1 116 428 282 XOR",
  chars! "2 1 52 428 281 XOR",
  chars! "2 1 281 282 283 AND",
  chars! "2 1 283 428 429 XOR",
  chars! "2 1 117 429 285 XOR",
  chars! "2 1 53 429 284 XOR",
  chars! "2 1 284 285 286 AND",
  chars! "2 1 286 429 430 XOR",
  chars! "2 1 118 430 288 XOR",
  chars! "2 1 54 430 287 XOR",
  chars! "2 1 287 288 289 AND",
  chars! "2 1 289 430 431 XOR",
  chars! "2 1 119 431 291 XOR",
  chars! "2 1 55 431 290 XOR",
  chars! "2 1 290 291 292 AND",
  chars! "2 1 292 431 432 XOR",
  chars! "2 1 120 432 294 XOR",
  chars! "2 1 56 432 293 XOR",
  chars! "2 1 293 294 295 AND",
  chars! "2 1 295 432 433 XOR",
  chars! "2 1 370 433 497 XOR",
  chars! "2 1 121 433 297 XOR",
  chars! "2 1 57 433 296 XOR",
  chars! "2 1 296 297 298 AND",
  chars! "2 1 298 433 434 XOR",
  chars! "2 1 371 434 498 XOR",
  chars! "2 1 369 432 496 XOR",
  chars! "2 1 122 434 300 XOR",
  chars! "2 1 58 434 299 XOR",
  chars! "2 1 299 300 301 AND",
  chars! "2 1 301 434 435 XOR",
  chars! "2 1 372 435 499 XOR",
  chars! "2 1 368 431 495 XOR",
  chars! "2 1 123 435 303 XOR",
  chars! "2 1 59 435 302 XOR",
  chars! "2 1 302 303 304 AND",
  chars! "2 1 304 435 436 XOR",
  chars! "2 1 367 430 494 XOR",
  chars! "2 1 60 436 305 XOR",
  chars! "2 1 373 436 500 XOR",
  chars! "2 1 366 429 493 XOR",
  chars! "2 1 124 436 306 XOR",
  chars! "2 1 305 306 307 AND",
  chars! "2 1 307 436 437 XOR",
  chars! "2 1 374 437 501 XOR",
  chars! "2 1 365 428 492 XOR",
  chars! "2 1 125 437 309 XOR",
  chars! "2 1 61 437 308 XOR",
  chars! "2 1 308 309 310 AND",
  chars! "2 1 310 437 438 XOR",
  chars! "2 1 375 438 502 XOR",
  chars! "2 1 364 427 491 XOR",
  chars! "2 1 126 438 312 XOR",
  chars! "2 1 62 438 311 XOR",
  chars! "2 1 311 312 313 AND",
  chars! "2 1 313 438 439 XOR",
  chars! "2 1 376 439 503 XOR",
  chars! "",
  chars! ""]

/-- `build_adder64` — src/circuits/arithmetic/mod.rs:10. -/
def buildAdder64 : Ref → M Unit := build adder64Text

/-- src/circuits/arithmetic/sub64.txt -/
def sub64Text : List Char := ofLines [
  chars! "439 567",
  chars! "2 64 64 ",
  chars! "1 64 ",
  chars! "",
  chars! "2 1 63 127 439 XOR",
  chars! "2 1 62 126 438 XOR",
  chars! "2 1 61 125 437 XOR",
  chars! "2 1 60 124 436 XOR",
  chars! "2 1 59 123 435 XOR",
  chars! "2 1 58 122 434 XOR",
  chars! "2 1 57 121 433 XOR",
  chars! "2 1 56 120 432 XOR",
  chars! "2 1 55 119 431 XOR",
  chars! "2 1 54 118 430 XOR",
  chars! "2 1 53 117 429 XOR",
  chars! "2 1 52 116 428 XOR",
  chars! "2 1 51 115 427 XOR",
  chars! "2 1 50 114 426 XOR",
  chars! "2 1 49 113 425 XOR",
  chars! "2 1 48 112 424 XOR",
  chars! "2 1 47 111 423 XOR",
  chars! "2 1 46 110 422 XOR",
  chars! "2 1 45 109 421 XOR",
  chars! "2 1 44 108 420 XOR",
  chars! "2 1 43 107 419 XOR",
  chars! "2 1 42 106 418 XOR",
  chars! "2 1 41 105 417 XOR",
  chars! "2 1 40 104 416 XOR",
  chars! "2 1 39 103 415 XOR",
  chars! "2 1 38 102 414 XOR",
  chars! "2 1 37 101 413 XOR",
  chars! "2 1 36 100 412 XOR",
  chars! "2 1 35 99 411 XOR",
  chars! "2 1 34 98 410 XOR",
  chars! "2 1 33 97 409 XOR",
  chars! "2 1 32 96 408 XOR",
  chars! "2 1 31 95 407 XOR",
  chars! "2 1 30 94 406 XOR",
  chars! "2 1 29 93 405 XOR",
  chars! "2 1 28 92 404 XOR",
  chars! "2 1 27 91 403 XOR",
  chars! "2 1 26 90 402 XOR",
  chars! "2 1 25 89 401 XOR",
  chars! "2 1 24 88 400 XOR",
  chars! "2 1 23 87 399 XOR",
  chars! "2 1 22 86 398 XOR",
  chars! "2 1 21 85 397 XOR",
  chars! "2 1 20 84 396 XOR",
  chars! "2 1 19 83 395 XOR",
  chars! "2 1 18 82 394 XOR",
  chars! "2 1 17 81 393 XOR",
  chars! "2 1 16 80 392 XOR",
  chars! "2 1 15 79 391 XOR",
  chars! "2 1 14 78 390 XOR",
  chars! "2 1 13 77 389 XOR",
  chars! "2 1 12 76 388 XOR",
  chars! "2 1 11 75 387 XOR",
  chars! "2 1 10 74 386 XOR",
  chars! "2 1 9 73 385 XOR",
  chars! "2 1 8 72 384 XOR",
  chars! "2 1 7 71 383 XOR",
  chars! "2 1 6 70 382 XOR",
  chars! "2 1 5 69 381 XOR",
  chars! "2 1 4 68 380 XOR",
  chars! "2 1 3 67 379 XOR",
  chars! "2 1 2 66 378 XOR",
  chars! "2 1 1 65 377 XOR",
  chars! "2 1 0 64 503 XOR",
  chars! "1 1 0 314 INV",
  chars! "2 1 314 64 440 AND",
  chars! "2 1 65 440 129 XOR",
  chars! "2 1 377 440 504 XOR",
  chars! "1 1 1 315 INV",
  chars! "2 1 315 440 128 XOR",
  chars! "2 1 128 129 130 AND",
  chars! "2 1 130 440 441 XOR",
  chars! "2 1 66 441 132 XOR",
  chars! "2 1 378 441 505 XOR",
  chars! "1 1 2 316 INV",
  chars! "2 1 316 441 131 XOR",
  chars! "2 1 131 132 133 AND",
  chars! "2 1 133 441 442 XOR",
  chars! "2 1 67 442 135 XOR",
  chars! "2 1 379 442 506 XOR",
  chars! "1 1 3 317 INV",
  chars! "2 1 317 442 134 XOR",
  chars! "2 1 134 135 136 AND",
  chars! "2 1 136 442 443 XOR",
  chars! "2 1 68 443 138 XOR",
  chars! "2 1 380 443 507 XOR",
  chars! "1 1 4 318 INV",
  chars! "2 1 318 443 137 XOR",
  chars! "2 1 137 138 139 AND",
  chars! "2 1 139 443 444 XOR",
  chars! "2 1 69 444 141 XOR",
  chars! "2 1 381 444 508 XOR",
  chars! "1 1 5 319 INV",
  chars! "2 1 319 444 140 XOR",
  chars! "2 1 140 141 142 AND",
  chars! "2 1 142 444 445 XOR",
  chars! "2 1 70 445 144 XOR",
  chars! "2 1 382 445 509 XOR",
  chars! "1 1 6 320 INV",
  chars! "2 1 320 445 143 XOR",
  chars! "2 1 143 144 145 AND",
  chars! "2 1 145 445 446 XOR",
  chars! "2 1 71 446 147 XOR",
  chars! "2 1 383 446 510 XOR",
  chars! "1 1 7 321 INV",
  chars! "2 1 321 446 146 XOR",
  chars! "2 1 146 147 148 AND",
  chars! "2 1 148 446 447 XOR",
  chars! "2 1 72 447 150 XOR",
  chars! "2 1 384 447 511 XOR",
  chars! "1 1 8 322 INV",
  chars! "2 1 322 447 149 XOR",
  chars! "2 1 149 150 151 AND",
  chars! "2 1 151 447 448 XOR",
  chars! "2 1 73 448 153 XOR",
  chars! "2 1 385 448 512 XOR",
  chars! "1 1 9 323 INV",
  chars! "2 1 323 448 152 XOR",
  chars! "2 1 152 153 154 AND",
  chars! "2 1 154 448 449 XOR",
  chars! "2 1 74 449 156 XOR",
  chars! "2 1 386 449 513 XOR",
  chars! "1 1 10 324 INV",
  chars! "2 1 324 449 155 XOR",
  chars! "2 1 155 156 157 AND",
  chars! "2 1 157 449 450 XOR",
  chars! "2 1 75 450 159 XOR",
  chars! "2 1 387 450 514 XOR",
  chars! "1 1 11 325 INV",
  chars! "2 1 325 450 158 XOR",
  chars! "2 1 158 159 160 AND",
  chars! "2 1 160 450 451 XOR",
  chars! "2 1 76 451 162 XOR",
  chars! "2 1 388 451 515 XOR",
  chars! "1 1 12 326 INV",
  chars! "2 1 326 451 161 XOR",
  chars! "2 1 161 162 163 AND",
  chars! "2 1 163 451 452 XOR",
  chars! "2 1 77 452 165 XOR",
  chars! "2 1 389 452 516 XOR",
  chars! "1 1 13 327 INV",
  chars! "2 1 327 452 164 XOR",
  chars! "2 1 164 165 166 AND",
  chars! "2 1 166 452 453 XOR",
  chars! "2 1 78 453 168 XOR",
  chars! "2 1 390 453 517 XOR",
  chars! "1 1 14 328 INV",
  chars! "2 1 328 453 167 XOR",
  chars! "2 1 167 168 169 AND",
  chars! "2 1 169 453 454 XOR",
  chars! "2 1 79 454 171 XOR",
  chars! "2 1 391 454 518 XOR",
  chars! "1 1 15 329 INV",
  chars! "2 1 329 454 170 XOR",
  chars! "2 1 170 171 172 AND",
  chars! "2 1 172 454 455 XOR",
  chars! "2 1 80 455 174 XOR",
  chars! "2 1 392 455 519 XOR",
  chars! "1 1 16 330 INV",
  chars! "2 1 330 455 173 XOR",
  chars! "2 1 173 174 175 AND",
  chars! "2 1 175 455 456 XOR",
  chars! "2 1 81 456 177 XOR",
  chars! "2 1 393 456 520 XOR",
  chars! "1 1 17 331 INV",
  chars! "2 1 331 456 176 XOR",
  chars! "2 1 176 177 178 AND",
  chars! "2 1 178 456 457 XOR",
  chars! "2 1 82 457 180 XOR",
  chars! "2 1 394 457 521 XOR",
  chars! "1 1 18 332 INV",
  chars! "2 1 332 457 179 XOR",
  chars! "2 1 179 180 181 AND",
  chars! "2 1 181 457 458 XOR",
  chars! "2 1 83 458 183 XOR",
  chars! "2 1 395 458 522 XOR",
  chars! "1 1 19 333 INV",
  chars! "2 1 333 458 182 XOR",
  chars! "2 1 182 183 184 AND",
  chars! "2 1 184 458 459 XOR",
  chars! "2 1 84 459 186 XOR",
  chars! "2 1 396 459 523 XOR",
  chars! "1 1 20 334 INV",
  chars! "2 1 334 459 185 XOR",
  chars! "2 1 185 186 187 AND",
  chars! "2 1 187 459 460 XOR",
  chars! "2 1 85 460 189 XOR",
  chars! "2 1 397 460 524 XOR",
  chars! "1 1 21 335 INV",
  chars! "2 1 335 460 188 XOR",
  chars! "2 1 188 189 190 AND",
  chars! "2 1 190 460 461 XOR",
  chars! "2 1 86 461 192 XOR",
  chars! "2 1 398 461 525 XOR",
  chars! "1 1 22 336 INV",
  chars! "2 1 336 461 191 XOR",
  chars! "2 1 191 192 193 AND",
  chars! "2 1 193 461 462 XOR",
  chars! "2 1 399 462 526 XOR",
  chars! "2 1 87 462 195 XOR",
  chars! "1 1 23 337 INV",
  chars! "2 1 337 462 194 XOR",
  chars! "2 1 194 195 196 AND",
  chars! "2 1 196 462 463 XOR",
  chars! "2 1 88 463 198 XOR",
  chars! "2 1 400 463 527 XOR",
  chars! "1 1 24 338 INV",
  chars! "2 1 338 463 197 XOR",
  chars! "2 1 197 198 199 AND",
  chars! "2 1 199 463 464 XOR",
  chars! "2 1 401 464 528 XOR",
  chars! "2 1 89 464 201 XOR",
  chars! "1 1 25 339 INV",
  chars! "2 1 339 464 200 XOR",
  chars! "2 1 200 201 202 AND",
  chars! "2 1 202 464 465 XOR",
  chars! "2 1 402 465 529 XOR",
  chars! "2 1 90 465 204 XOR",
  chars! "1 1 26 340 INV",
  chars! "2 1 340 465 203 XOR",
  chars! "2 1 203 204 205 AND",
  chars! "2 1 205 465 466 XOR",
  chars! "2 1 91 466 207 XOR",
  chars! "2 1 403 466 530 XOR",
  chars! "1 1 27 341 INV",
  chars! "2 1 341 466 206 XOR",
  chars! "2 1 206 207 208 AND",
  chars! "2 1 208 466 467 XOR",
  chars! "2 1 92 467 210 XOR",
  chars! "2 1 404 467 531 XOR",
  chars! "1 1 28 342 INV",
  chars! "2 1 342 467 209 XOR",
  chars! "2 1 209 210 211 AND",
  chars! "2 1 211 467 468 XOR",
  chars! "2 1 405 468 532 XOR",
  chars! "2 1 93 468 213 XOR",
  chars! "1 1 29 343 INV",
  chars! "2 1 343 468 212 XOR",
  chars! "2 1 212 213 214 AND",
  chars! "2 1 214 468 469 XOR",
  chars! "2 1 94 469 216 XOR",
  chars! "2 1 406 469 533 XOR",
  chars! "1 1 30 344 INV",
  chars! "2 1 344 469 215 XOR",
  chars! "2 1 215 216 217 AND",
  chars! "2 1 217 469 470 XOR",
  chars! "2 1 407 470 534 XOR",
  chars! "2 1 95 470 219 XOR",
  chars! "1 1 31 345 INV",
  chars! "2 1 345 470 218 XOR",
  chars! "2 1 218 219 220 AND",
  chars! "2 1 220 470 471 XOR",
  chars! "2 1 96 471 222 XOR",
  chars! "2 1 408 471 535 XOR",
  chars! "1 1 32 346 INV",
  chars! "2 1 346 471 221 XOR",
  chars! "2 1 221 222 223 AND",
  chars! "2 1 223 471 472 XOR",
  chars! "2 1 97 472 225 XOR",
  chars! "2 1 409 472 536 XOR",
  chars! "1 1 33 347 INV",
  chars! "2 1 347 472 224 XOR",
  chars! "2 1 224 225 226 AND",
  chars! "2 1 226 472 473 XOR",
  chars! "2 1 410 473 537 XOR",
  chars! "2 1 98 473 228 XOR",
  chars! "1 1 34 348 INV",
  chars! "2 1 348 473 227 XOR",
  chars! "2 1 227 228 229 AND",
  chars! "2 1 229 473 474 XOR",
  chars! "2 1 411 474 538 XOR",
  chars! "2 1 99 474 231 XOR",
  chars! "1 1 35 349 INV",
  chars! "2 1 349 474 230 XOR",
  chars! "2 1 230 231 232 AND",
  chars! "2 1 232 474 475 XOR",
  chars! "2 1 412 475 539 XOR",
  chars! "2 1 100 475 234 XOR",
  chars! "1 1 36 350 INV",
  chars! "2 1 350 475 233 XOR",
  chars! "2 1 233 234 235 AND",
  chars! "2 1 235 475 476 XOR",
  chars! "2 1 413 476 540 XOR",
  chars! "2 1 101 476 237 XOR",
  chars! "1 1 37 351 INV",
  chars! "2 1 351 476 236 XOR",
  chars! "2 1 236 237 238 AND",
  chars! "2 1 238 476 477 XOR",
  chars! "2 1 414 477 541 XOR",
  chars! "2 1 102 477 240 XOR",
  chars! "1 1 38 352 INV",
  chars! "2 1 352 477 239 XOR",
  chars! "2 1 239 240 241 AND",
  chars! "2 1 241 477 478 XOR",
  chars! "2 1 103 478 243 XOR",
  chars! "2 1 415 478 542 XOR",
  chars! "1 1 39 353 INV",
  chars! "2 1 353 478 242 XOR",
  chars! "2 1 242 243 244 AND",
  chars! "2 1 244 478 479 XOR",
  chars! "2 1 416 479 543 XOR",
  chars! "2 1 104 479 246 XOR",
  chars! "1 1 40 354 INV",
  chars! "2 1 354 479 245 XOR",
  chars! "2 1 245 246 247 AND",
  chars! "2 1 247 479 480 XOR",
  chars! "2 1 417 480 544 XOR",
  chars! "2 1 105 480 249 XOR",
  chars! "1 1 41 355 INV",
  chars! "2 1 355 480 248 XOR",
  chars! "2 1 248 249 250 AND",
  chars! "2 1 250 480 481 XOR",
  chars! "2 1 418 481 545 XOR",
  chars! "2 1 106 481 252 XOR",
  chars! "1 1 42 356 INV",
  chars! "2 1 356 481 251 XOR",
  chars! "2 1 251 252 253 AND",
  chars! "2 1 253 481 482 XOR",
  chars! "2 1 107 482 255 XOR",
  chars! "2 1 419 482 546 XOR",
  chars! "1 1 43 357 INV",
  chars! "2 1 357 482 254 XOR",
  chars! "2 1 254 255 256 AND",
  chars! "2 1 256 482 483 XOR",
  chars! "2 1 420 483 547 XOR",
  chars! "2 1 108 483 258 XOR",
  chars! "1 1 44 358 INV",
  chars! "2 1 358 483 257 XOR",
  chars! "2 1 257 258 259 AND",
  chars! "2 1 259 483 484 XOR",
  chars! "2 1 109 484 261 XOR",
  chars! "2 1 421 484 548 XOR",
  chars! "1 1 45 359 INV",
  chars! "2 1 359 484 260 XOR",
  chars! "2 1 260 261 262 AND",
  chars! "2 1 262 484 485 XOR",
  chars! "2 1 422 485 549 XOR",
  chars! "2 1 110 485 264 XOR",
  chars! "1 1 46 360 INV",
  chars! "2 1 360 485 263 XOR",
  chars! "2 1 263 264 265 AND",
  chars! "2 1 265 485 486 XOR",
  chars! "2 1 423 486 550 XOR",
  chars! "2 1 111 486 267 XOR",
  chars! "1 1 47 361 INV",
  chars! "2 1 361 486 266 XOR",
  chars! "2 1 266 267 268 AND",
  chars! "2 1 268 486 487 XOR",
  chars! "2 1 112 487 270 XOR",
  chars! "2 1 424 487 551 XOR",
  chars! "1 1 48 362 INV",
  chars! "2 1 362 487 269 XOR",
  chars! "2 1 269 270 271 AND",
  chars! "2 1 271 487 488 XOR",
  chars! "2 1 113 488 273 XOR",
  chars! "2 1 425 488 552 XOR",
  chars! "1 1 49 363 INV",
  chars! "2 1 363 488 272 XOR",
  chars! "2 1 272 273 274 AND",
  chars! "2 1 274 488 489 XOR",
  chars! "2 1 114 489 276 XOR",
  chars! "2 1 426 489 553 XOR",
  chars! "1 1 50 364 INV",
  chars! "2 1 364 489 275 XOR",
  chars! "2 1 275 276 277 AND",
  chars! "2 1 277 489 490 XOR",
  chars! "2 1 115 490 279 XOR",
  chars! "2 1 427 490 554 XOR",
  chars! "1 1 51 365 INV",
  chars! "2 1 365 490 278 XOR",
  chars! "2 1 278 279 280 AND",
  chars! "2 1 280 490 491 XOR",
  chars! "2 1 116 491 282 XOR",
  chars! "2 1 428 491 555 XOR",
  chars! "1 1 52 366 INV",
  chars! "2 1 366 491 281 XOR",
  chars! "2 1 281 282 283 AND",
  chars! "2 1 283 491 492 XOR",
  chars! "2 1 117 492 285 XOR",
  chars! "2 1 429 492 556 XOR",
  chars! "1 1 53 367 INV",
  chars! "2 1 367 492 284 XOR",
  chars! "2 1 284 285 286 AND",
  chars! "2 1 286 492 493 XOR",
  chars! "2 1 118 493 288 XOR",
  chars! "2 1 430 493 557 XOR",
  chars! "1 1 54 368 INV",
  chars! "2 1 368 493 287 XOR",
  chars! "2 1 287 288 289 AND",
  chars! "2 1 289 493 494 XOR",
  chars! "2 1 431 494 558 XOR",
  chars! "2 1 119 494 291 XOR",
  chars! "1 1 55 369 INV",
  chars! "2 1 369 494 290 XOR",
  chars! "2 1 290 291 292 AND",
  chars! "2 1 292 494 495 XOR",
  chars! "2 1 432 495 559 XOR",
  chars! "2 1 120 495 294 XOR",
  chars! "1 1 56 370 INV",
  chars! "2 1 370 495 293 XOR",
  chars! "2 1 293 294 295 AND",
  chars! "2 1 295 495 496 XOR",
  chars! "2 1 121 496 297 XOR",
  chars! "2 1 433 496 560 XOR",
  chars! "1 1 57 371 INV",
  chars! "2 1 371 496 296 XOR",
  chars! "2 1 296 297 298 AND",
  chars! "2 1 298 496 497 XOR",
  chars! "2 1 122 497 300 XOR",
  chars! "2 1 434 497 561 XOR",
  chars! "1 1 58 372 INV",
  chars! "2 1 372 497 299 XOR",
  chars! "2 1 299 300 301 AND",
  chars! "2 1 301 497 498 XOR",
  chars! "2 1 123 498 303 XOR",
  chars! "2 1 435 498 562 XOR",
  chars! "1 1 59 373 INV",
  chars! "2 1 373 498 302 XOR",
  chars! "2 1 302 303 304 AND",
  chars! "2 1 304 498 499 XOR",
  chars! "2 1 436 499 563 XOR",
  chars! "2 1 124 499 306 XOR",
  chars! "1 1 60 374 INV",
  chars! "2 1 374 499 305 XOR",
  chars! "2 1 305 306 307 AND",
  chars! "2 1 307 499 500 XOR",
  chars! "2 1 125 500 309 XOR",
  chars! "2 1 437 500 564 XOR",
  chars! "1 1 61 375 INV",
  chars! "2 1 375 500 308 XOR",
  chars! "2 1 308 309 310 AND",
  chars! "2 1 310 500 501 XOR",
  chars! "2 1 438 501 565 XOR",
  chars! "2 1 126 501 312 XOR",
  chars! "1 1 62 376 INV",
  chars! "2 1 376 501 311 XOR",
  chars! "2 1 311 312 313 AND",
  chars! "2 1 313 501 502 XOR",
  chars! "2 1 439 502 566 XOR",
  chars! "",
  chars! ""]

/-- `build_sub64` — src/circuits/arithmetic/mod.rs:11. -/
def buildSub64 : Ref → M Unit := build sub64Text

/-- src/circuits/arithmetic/neg64.txt -/
def neg64Text : List Char := ofLines [
  chars! "190 254",
  chars! "1 64 ",
  chars! "1 64 ",
  chars! "",
  chars! "1 1 0 190 EQW",
  chars! "1 1 1 83 INV",
  chars! "1 1 0 82 INV",
  chars! "2 1 83 82 105 AND",
  chars! "1 1 2 104 INV",
  chars! "2 1 105 104 127 AND",
  chars! "1 1 3 126 INV",
  chars! "2 1 127 126 149 AND",
  chars! "1 1 4 148 INV",
  chars! "2 1 149 148 171 AND",
  chars! "1 1 5 170 INV",
  chars! "2 1 171 170 183 AND",
  chars! "1 1 6 182 INV",
  chars! "2 1 183 182 185 AND",
  chars! "1 1 7 184 INV",
  chars! "2 1 185 184 187 AND",
  chars! "1 1 8 186 INV",
  chars! "2 1 187 186 189 AND",
  chars! "1 1 9 188 INV",
  chars! "2 1 189 188 65 AND",
  chars! "1 1 10 64 INV",
  chars! "2 1 65 64 200 XOR",
  chars! "2 1 65 64 67 AND",
  chars! "1 1 11 66 INV",
  chars! "2 1 67 66 201 XOR",
  chars! "2 1 67 66 69 AND",
  chars! "1 1 12 68 INV",
  chars! "2 1 69 68 202 XOR",
  chars! "2 1 69 68 71 AND",
  chars! "1 1 13 70 INV",
  chars! "2 1 71 70 203 XOR",
  chars! "2 1 71 70 73 AND",
  chars! "1 1 14 72 INV",
  chars! "2 1 73 72 204 XOR",
  chars! "2 1 73 72 75 AND",
  chars! "1 1 15 74 INV",
  chars! "2 1 75 74 205 XOR",
  chars! "2 1 75 74 77 AND",
  chars! "1 1 16 76 INV",
  chars! "2 1 77 76 206 XOR",
  chars! "2 1 77 76 79 AND",
  chars! "1 1 17 78 INV",
  chars! "2 1 79 78 207 XOR",
  chars! "2 1 79 78 81 AND",
  chars! "1 1 18 80 INV",
  chars! "2 1 81 80 208 XOR",
  chars! "2 1 81 80 85 AND",
  chars! "1 1 19 84 INV",
  chars! "2 1 85 84 209 XOR",
  chars! "2 1 83 82 191 XOR",
  chars! "2 1 85 84 87 AND",
  chars! "1 1 20 86 INV",
  chars! "2 1 87 86 210 XOR",
  chars! "2 1 87 86 89 AND",
  chars! "1 1 21 88 INV",
  chars! "2 1 89 88 211 XOR",
  chars! "2 1 89 88 91 AND",
  chars! "1 1 22 90 INV",
  chars! "2 1 91 90 212 XOR",
  chars! "2 1 91 90 93 AND",
  chars! "1 1 23 92 INV",
  chars! "2 1 93 92 213 XOR",
  chars! "2 1 93 92 95 AND",
  chars! "1 1 24 94 INV",
  chars! "2 1 95 94 214 XOR",
  chars! "2 1 95 94 97 AND",
  chars! "1 1 25 96 INV",
  chars! "2 1 97 96 215 XOR",
  chars! "2 1 97 96 99 AND",
  chars! "1 1 26 98 INV",
  chars! "2 1 99 98 216 XOR",
  chars! "2 1 99 98 101 AND",
  chars! "1 1 27 100 INV",
  chars! "2 1 101 100 217 XOR",
  chars! "2 1 101 100 103 AND",
  chars! "1 1 28 102 INV",
  chars! "2 1 103 102 218 XOR",
  chars! "2 1 103 102 107 AND",
  chars! "1 1 29 106 INV",
  chars! "2 1 107 106 219 XOR",
  chars! "2 1 105 104 192 XOR",
  chars! "2 1 107 106 109 AND",
  chars! "1 1 30 108 INV",
  chars! "2 1 109 108 220 XOR",
  chars! "2 1 109 108 111 AND",
  chars! "1 1 31 110 INV",
  chars! "2 1 111 110 221 XOR",
  chars! "2 1 111 110 113 AND",
  chars! "1 1 32 112 INV",
  chars! "2 1 113 112 222 XOR",
  chars! "2 1 113 112 115 AND",
  chars! "1 1 33 114 INV",
  chars! "2 1 115 114 223 XOR",
  chars! "2 1 115 114 117 AND",
  chars! "1 1 34 116 INV",
  chars! "2 1 117 116 224 XOR",
  chars! "2 1 117 116 119 AND",
  chars! "1 1 35 118 INV",
  chars! "2 1 119 118 225 XOR",
  chars! "2 1 119 118 121 AND",
  chars! "1 1 36 120 INV",
  chars! "2 1 121 120 226 XOR",
  chars! "2 1 121 120 123 AND",
  chars! "1 1 37 122 INV",
  chars! "2 1 123 122 227 XOR",
  chars! "2 1 123 122 125 AND",
  chars! "1 1 38 124 INV",
  chars! "2 1 125 124 228 XOR",
  chars! "2 1 125 124 129 AND",
  chars! "1 1 39 128 INV",
  chars! "2 1 129 128 229 XOR",
  chars! "2 1 127 126 193 XOR",
  chars! "2 1 129 128 131 AND",
  chars! "1 1 40 130 INV",
  chars! "2 1 131 130 230 XOR",
  chars! "2 1 131 130 133 AND",
  chars! "1 1 41 132 INV",
  chars! "2 1 133 132 231 XOR",
  chars! "2 1 133 132 135 AND",
  chars! "1 1 42 134 INV",
  chars! "2 1 135 134 232 XOR",
  chars! "2 1 135 134 137 AND",
  chars! "1 1 43 136 INV",
  chars! "2 1 137 136 233 XOR",
  chars! "2 1 137 136 139 AND",
  chars! "1 1 44 138 INV",
  chars! "2 1 139 138 234 XOR",
  chars! "2 1 139 138 141 AND",
  chars! "1 1 45 140 INV",
  chars! "2 1 141 140 235 XOR",
  chars! "2 1 141 140 143 AND",
  chars! "1 1 46 142 INV",
  chars! "2 1 143 142 236 XOR",
  chars! "2 1 143 142 145 AND",
  chars! "1 1 47 144 INV",
  chars! "2 1 145 144 237 XOR",
  chars! "2 1 145 144 147 AND",
  chars! "1 1 48 146 INV",
  chars! "2 1 147 146 238 XOR",
  chars! "2 1 147 146 151 AND",
  chars! "1 1 49 150 INV",
  chars! "2 1 151 150 239 XOR",
  chars! "2 1 149 148 194 XOR",
  chars! "2 1 151 150 153 AND",
  chars! "1 1 50 152 INV",
  chars! "2 1 153 152 240 XOR",
  chars! "2 1 153 152 155 AND",
  chars! "1 1 51 154 INV",
  chars! "2 1 155 154 241 XOR",
  chars! "2 1 155 154 157 AND",
  chars! "1 1 52 156 INV",
  chars! "2 1 157 156 242 XOR",
  chars! "2 1 157 156 159 AND",
  chars! "1 1 53 158 INV",
  chars! "2 1 159 158 243 XOR",
  chars! "2 1 159 158 161 AND",
  chars! "1 1 54 160 INV",
  chars! "2 1 161 160 244 XOR",
  chars! "2 1 161 160 163 AND",
  chars! "1 1 55 162 INV",
  chars! "2 1 163 162 245 XOR",
  chars! "2 1 163 162 165 AND",
  chars! "1 1 56 164 INV",
  chars! "2 1 165 164 246 XOR",
  chars! "2 1 165 164 167 AND",
  chars! "1 1 57 166 INV",
  chars! "2 1 167 166 247 XOR",
  chars! "2 1 167 166 169 AND",
  chars! "1 1 58 168 INV",
  chars! "2 1 169 168 248 XOR",
  chars! "2 1 169 168 173 AND",
  chars! "1 1 59 172 INV",
  chars! "2 1 173 172 249 XOR",
  chars! "2 1 171 170 195 XOR",
  chars! "2 1 173 172 175 AND",
  chars! "1 1 60 174 INV",
  chars! "2 1 175 174 250 XOR",
  chars! "2 1 175 174 177 AND",
  chars! "1 1 61 176 INV",
  chars! "2 1 177 176 251 XOR",
  chars! "2 1 177 176 178 AND",
  chars! "1 1 62 179 INV",
  chars! "2 1 178 179 252 XOR",
  chars! "2 1 179 178 180 AND",
  chars! "2 1 63 180 181 XOR",
  chars! "1 1 181 253 INV",
  chars! "2 1 183 182 196 XOR",
  chars! "2 1 185 184 197 XOR",
  chars! "2 1 187 186 198 XOR",
  chars! "2 1 189 188 199 XOR",
  chars! "",
  chars! ""]

/-- `build_neg64` — src/circuits/arithmetic/mod.rs:12. -/
def buildNeg64 : Ref → M Unit := build neg64Text

end CC.Bundled
